import Verif.Base.AllOps
import Verif.Base.Par
import Verif.Base.Prog
import Verif.Base.Prompt
import Verif.Base.Py
import Verif.Base.Raises
import Verif.Base.Sched
import Verif.Model.Api
import Verif.Model.App
import Verif.Model.BTBV
import Verif.Model.Backend
import Verif.Model.Base64
import Verif.Model.Contracts
import Verif.Model.Heap
import Verif.Model.IdentityKeyPair
import Verif.Model.Keys
import Verif.Model.Memory
import Verif.Model.Reference
import Verif.Model.Refs
import Verif.Model.SessionManager
import Verif.Model.Storage
import Verif.Model.Types
import Verif.Spec.Account
import Verif.Spec.Decrypt
import Verif.Spec.Devices
import Verif.Spec.Fleet
import Verif.Spec.Life
import Verif.Spec.Restart
import Verif.Spec.Storage
import Verif.Spec.Trace
import Verif.Spec.Typed
import Verif.Proofs.Account
import Verif.Proofs.Apart
import Verif.Proofs.Backed
import Verif.Proofs.Base64
import Verif.Proofs.Belongs
import Verif.Proofs.CachePar
import Verif.Proofs.CallOps
import Verif.Proofs.CallParts
import Verif.Proofs.CalmParts
import Verif.Proofs.DecryptTrace
import Verif.Proofs.DiskTrace
import Verif.Proofs.EncryptResult
import Verif.Proofs.EncryptRun
import Verif.Proofs.EncryptTrace
import Verif.Proofs.EncryptUse
import Verif.Proofs.ExecLib
import Verif.Proofs.ExecLoops
import Verif.Proofs.Footprint
import Verif.Proofs.InfoDisk
import Verif.Proofs.InfoTrace
import Verif.Proofs.KVLemmas
import Verif.Proofs.Knows
import Verif.Proofs.LibLemmas
import Verif.Proofs.NoKey
import Verif.Proofs.PresLib
import Verif.Proofs.Preserve
import Verif.Proofs.PromptSM
import Verif.Proofs.Proper
import Verif.Proofs.RaisesCalls
import Verif.Proofs.RaisesLib
import Verif.Proofs.RaisesSM
import Verif.Proofs.Recorded
import Verif.Proofs.RefSim
import Verif.Proofs.Sample
import Verif.Proofs.SampleLife
import Verif.Proofs.SendTrace
import Verif.Proofs.ServerParts
import Verif.Proofs.Shared
import Verif.Proofs.SharedApp
import Verif.Proofs.SharedFns
import Verif.Proofs.StorageCache
import Verif.Proofs.Swaps
import Verif.Proofs.Tidy
import Verif.Proofs.TidyPurge
import Verif.Proofs.Trace
import Verif.Proofs.TrustTrace
import Verif.Proofs.UpdateList
import Verif.Props.Again
import Verif.Props.Amplify
import Verif.Props.Attribution
import Verif.Props.Blind
import Verif.Props.BlindEncrypt
import Verif.Props.BundlePar
import Verif.Props.Bundles
import Verif.Props.CachePar
import Verif.Props.Commute
import Verif.Props.Concurrent
import Verif.Props.Contact
import Verif.Props.Conversation
import Verif.Props.Create
import Verif.Props.Crossing
import Verif.Props.Current
import Verif.Props.Decisive
import Verif.Props.Decrypt
import Verif.Props.DecryptAfter
import Verif.Props.Delivery
import Verif.Props.DeviceList
import Verif.Props.Distrust
import Verif.Props.Echo
import Verif.Props.Encrypt
import Verif.Props.EncryptResult
import Verif.Props.Exceptions
import Verif.Props.Failures
import Verif.Props.Fingerprint
import Verif.Props.Frame
import Verif.Props.Handed
import Verif.Props.Healed
import Verif.Props.HiddenKeys
import Verif.Props.Identity
import Verif.Props.Info
import Verif.Props.Intact
import Verif.Props.Isolation
import Verif.Props.Keep
import Verif.Props.KeyExchange
import Verif.Props.KeySecrecy
import Verif.Props.Keys
import Verif.Props.Listed
import Verif.Props.NoLeak
import Verif.Props.OneTime
import Verif.Props.Order
import Verif.Props.Outward
import Verif.Props.Overlap
import Verif.Props.Owed
import Verif.Props.Own
import Verif.Props.Passed
import Verif.Props.Pinned
import Verif.Props.Purge
import Verif.Props.PurgeJid
import Verif.Props.Ratchet
import Verif.Props.Reference
import Verif.Props.Refresh
import Verif.Props.Refs
import Verif.Props.Regard
import Verif.Props.Replace
import Verif.Props.Replay
import Verif.Props.Restart
import Verif.Props.Robust
import Verif.Props.Rotation
import Verif.Props.RoundTrip
import Verif.Props.Secrecy
import Verif.Props.Server
import Verif.Props.Silent
import Verif.Props.Sources
import Verif.Props.Stock
import Verif.Props.StockAsk
import Verif.Props.StockPar
import Verif.Props.Storage
import Verif.Props.Sync
import Verif.Props.TrustKept
import Verif.Props.Typed
import Verif.Props.Withdrawn
import Verif.Props.Work
import Verif.Wrong.Account
import Verif.Wrong.Attribution
import Verif.Wrong.Basics
import Verif.Wrong.Blame
import Verif.Wrong.Bytes
import Verif.Wrong.Decrypt
import Verif.Wrong.Echo
import Verif.Wrong.Encrypt
import Verif.Wrong.Info
import Verif.Wrong.Last
import Verif.Wrong.Leaks
import Verif.Wrong.Life
import Verif.Wrong.Lookup
import Verif.Wrong.More
import Verif.Wrong.Objects
import Verif.Wrong.OneTime
import Verif.Wrong.Order
import Verif.Wrong.Raising
import Verif.Wrong.Reference
import Verif.Wrong.Rest
import Verif.Wrong.Round
import Verif.Wrong.Together
import Verif.Wrong.Trust
