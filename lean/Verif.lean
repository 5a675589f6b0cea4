import Verif.Model.Index
import Verif.Model.Standalone
import Verif.Model.Io
import Verif.Proofs.Yields
import Verif.Props.Crypto
import Verif.Props.Kmac
import Verif.Props.Id
import Verif.Props.Io
import Verif.Props.Vault
import Verif.Props.Guard
import Verif.Props.Crash
import Verif.Props.Leak
import Verif.Props.Binding
import Verif.Props.Token
import Verif.Props.Standalone
import Verif.Props.EndToEnd
import Verif.Props.Story
import Verif.Props.Index
import Verif.Props.Concurrent
import Verif.Props.IndexCrash
import Verif.Props.Replay
import Verif.Props.ObjectConcurrent
import Verif.Props.KeyWrap
import Verif.Props.NoPanic
import Verif.Props.Heap
import Verif.Proofs.Linear
import Verif.Props.Linear
import Verif.Spec.Uuid
import Verif.Props.NewIds
import Verif.Props.DirLinear
import Verif.Props.DirConcurrent
import Verif.Props.Loud
import Verif.Model.Stack
import Verif.Props.Stack
import Verif.Props.MemConcurrent
import Verif.Props.Sets
import Verif.Std.Aes
import Verif.Std.AesProof
import Verif.Std.Gcm
import Verif.Std.Keccak
import Verif.Std.Time
import Verif.Std.Instance
import Verif.Std.Vectors
import Verif.Props.Standard
import Verif.Std.Field
import Verif.Std.Ghash
import Verif.Props.Tamper
import Verif.Props.IndexLeak
import Verif.Props.IndexHide
import Verif.Model.Log
import Verif.Proofs.Log
import Verif.Props.Log
import Verif.Proofs.IndexOwn
import Verif.Props.IndexLinear
import Verif.Spec.Fresh
import Verif.Props.Fresh
import Verif.Props.Escalate
import Verif.Props.EscalateCase
import Verif.Props.FailStop
import Verif.Props.DirCrash
import Verif.Props.Library
import Verif.Props.Moments
import Verif.Proofs.InStep
import Verif.Props.Blind
import Verif.Props.Opaque
import Verif.Props.Scopes
import Verif.Props.Keywords
import Verif.Model.Loggers
import Verif.Props.Loggers
import Verif.Spec.Games
import Verif.Spec.Spy
import Verif.Proofs.Spy
import Verif.Props.Confidential
import Verif.Props.KeywordGame
import Verif.Spec.Trial
import Verif.Proofs.Trial
import Verif.Props.Authentic
import Verif.Props.Sessions
import Verif.Props.Grants
import Verif.Props.Passwords
import Verif.Spec.Contest
import Verif.Proofs.Mirror
import Verif.Props.Identifiers
import Verif.Props.GroupNames
import Verif.Props.Outsiders
import Verif.Props.OneKey
import Verif.Props.ObjectCases
import Verif.Props.TokenCases
import Verif.Props.DirCases
import Verif.Props.LinearFail
import Verif.Proofs.Pays
import Verif.Props.WaitFree
import Verif.Props.Versions
import Verif.Props.Planted
import Verif.Props.Freshness
import Verif.Spec.Format
import Verif.Proofs.Format
import Verif.Props.Format
import Verif.Props.Labels
import Verif.Props.SecretScopes
import Verif.Props.Kinds
import Verif.Props.Errors
import Verif.Props.IndexErrors
import Verif.Props.DirErrors
import Verif.Props.Tidy
import Verif.Props.Confined
