import Verif.Curve.Order
import Verif.Bytes
import Verif.Res
import Verif.Sha256
import Verif.Secp
import Verif.Lemmas.Secp
import Verif.Model.TaggedHashes
import Verif.Model.Errors
import Verif.Model.KeyAgg
import Verif.Model.Nonces
import Verif.Model.Signing
import Verif.Model.Signature
import Verif.Model.SigAgg
import Verif.Model.Bip340
import Verif.Model.Deterministic
import Verif.Model.Hex
import Verif.Model.Rounds
import Verif.Spec.Bip340
import Verif.Spec.Bip341
import Verif.Spec.Bip327
import Verif.Spec.Rfc6979
import Verif.Spec.Tags
import Verif.Spec.Reachable
import Verif.Spec.Session
import Verif.Lemmas.Spec
import Verif.Lemmas.Sgn
import Verif.Lemmas.KeyAgg
import Verif.Lemmas.KeyAggBytes
import Verif.Lemmas.Reachable
import Verif.Lemmas.Nonces
import Verif.Lemmas.Signing
import Verif.Lemmas.Bip340
import Verif.Lemmas.History
import Verif.Lemmas.SigAgg
import Verif.Lemmas.Session
import Verif.Props.KeyAgg
import Verif.Props.KeyAggBytes
import Verif.Props.Nonces
import Verif.Props.Bip340
import Verif.Props.Signing
import Verif.Test.Vectors
import Verif.Spec.Hex
import Verif.Spec.Batch
import Verif.Lemmas.Encoding
import Verif.Lemmas.Batch
import Verif.Lemmas.Deterministic
import Verif.Props.Encoding
import Verif.Props.Hashes
import Verif.Props.Batch
import Verif.Props.Deterministic
import Verif.Spec.Rounds
import Verif.Spec.HonestSession
import Verif.Lemmas.Rounds
import Verif.Props.Rounds
import Verif.Props.Sessions
import Verif.Props.NonceReuse
import Verif.Spec.Extract
import Verif.Props.Solo
import Verif.Props.Group
import Verif.Model.Serde
import Verif.Model.Conversions
import Verif.Props.Exact
import Verif.Props.Serde
import Verif.Props.Conversions
import Verif.Props.Forger
import Verif.Spec.GroupForger
import Verif.Lemmas.Props.GroupForger
import Verif.Props.GroupForger
import Verif.Spec.Cma
import Verif.Lemmas.Props.Cma
import Verif.Props.Cma
import Verif.Spec.Views
import Verif.Lemmas.Props.Views
import Verif.Props.Views
import Verif.Spec.SessionForger
import Verif.Lemmas.Props.SessionForger
import Verif.Props.SessionForger
import Verif.Props.Forking
import Verif.Props.Uniform
import Verif.Props.Unlock
import Verif.Props.Binding
import Verif.Spec.Claims
import Verif.Lemmas.Props.Batch
import Verif.Lemmas.Props.Binding
import Verif.Lemmas.Props.Bip340
import Verif.Lemmas.Props.Conversions
import Verif.Lemmas.Props.Deterministic
import Verif.Lemmas.Props.Exact
import Verif.Lemmas.Props.Forking
import Verif.Lemmas.Props.Group
import Verif.Lemmas.Props.Hashes
import Verif.Lemmas.Props.KeyAgg
import Verif.Lemmas.Props.KeyAggBytes
import Verif.Lemmas.Props.NonceReuse
import Verif.Lemmas.Props.Nonces
import Verif.Lemmas.Props.Rounds
import Verif.Lemmas.Props.Serde
import Verif.Lemmas.Props.Sessions
import Verif.Lemmas.Props.Signing
import Verif.Lemmas.Props.Solo
import Verif.Lemmas.Props.Sharp
import Verif.Lemmas.Props.Aggregator
import Verif.Props.Sharp
import Verif.Props.Aggregator
import Verif.Model.Width
import Verif.Spec.Width
import Verif.Lemmas.Width
import Verif.Lemmas.Props.Width
import Verif.Props.Width
import Verif.Spec.Rogue
import Verif.Lemmas.Props.Rogue
import Verif.Props.Rogue
import Verif.Spec.Calls
import Verif.Lemmas.Props.Calls
import Verif.Props.Calls
import Verif.Spec.Decode
import Verif.Lemmas.Props.Decode
import Verif.Props.Decode
import Verif.Lemmas.Props.Agreement
import Verif.Props.Agreement
import Verif.Model.Display
import Verif.Spec.Display
import Verif.Lemmas.Props.Display
import Verif.Props.Display
import Verif.Model.Traits
import Verif.Lemmas.Props.Traits
import Verif.Props.Traits
import Verif.Spec.Ros
import Verif.Lemmas.Props.Ros
import Verif.Props.Ros
import Verif.Spec.Oracle
import Verif.Spec.Concurrent
import Verif.Lemmas.Props.Oracle
import Verif.Lemmas.Props.Concurrent
import Verif.Lemmas.Props.ConcurrentSolver
import Verif.Props.Concurrent
import Verif.Lemmas.Props.Cancel
import Verif.Props.Cancel
import Verif.Model.Constructors
import Verif.Spec.Random
import Verif.Lemmas.Props.Random
import Verif.Props.Random
import Verif.Spec.Adaptive
import Verif.Lemmas.Props.Adaptive
import Verif.Lemmas.Props.AdaptiveGame
import Verif.Lemmas.Props.AdaptiveSolver
import Verif.Lemmas.Props.AdaptiveExample
import Verif.Props.Adaptive
import Verif.Spec.OneMore
import Verif.Lemmas.Props.OneMore
import Verif.Props.OneMore
import Verif.Spec.BatchForger
import Verif.Lemmas.Props.BatchForger
import Verif.Props.BatchForger
import Verif.Spec.AdaptorForger
import Verif.Lemmas.Props.Decision
import Verif.Lemmas.Props.AdaptorForger
import Verif.Props.AdaptorForger
import Verif.Spec.SoloForger
import Verif.Lemmas.Props.SoloForger
import Verif.Props.SoloForger
import Verif.Spec.DetForger
import Verif.Lemmas.Props.DetForger
import Verif.Props.DetForger
import Verif.Lemmas.ForkAct
import Verif.Spec.AnyGroup
import Verif.Lemmas.Props.AnyGroup
import Verif.Props.AnyGroup
import Verif.Lemmas.Spread
import Verif.Spec.OneSigner
import Verif.Lemmas.Props.OneSigner
import Verif.Props.OneSigner
import Verif.Spec.Asker
import Verif.Lemmas.Asker
import Verif.Spec.KeyCommit
import Verif.Lemmas.Props.KeyCommit
import Verif.Props.KeyCommit
import Verif.Spec.NonceClash
import Verif.Lemmas.Props.NonceClash
import Verif.Props.NonceClash
import Verif.Lemmas.Lazy
import Verif.Spec.KeyHiding
import Verif.Lemmas.Props.KeyHiding
import Verif.Props.KeyHiding
import Verif.Spec.ManySigs
import Verif.Lemmas.Props.ManySigs
import Verif.Props.ManySigs
import Verif.Spec.Outsider
import Verif.Lemmas.Props.Outsider
import Verif.Props.Outsider
import Verif.Props.OwnKey
import Verif.Spec.Watcher
import Verif.Lemmas.Props.Watcher
import Verif.Props.Watcher
import Verif.Spec.NonceUser
import Verif.Lemmas.Props.NonceUser
import Verif.Props.NonceUser
import Verif.Spec.Member
import Verif.Lemmas.Props.Member
import Verif.Props.Member
import Verif.Spec.SoloSigners
import Verif.Lemmas.Props.SoloSigners
import Verif.Props.SoloSigners
import Verif.Lemmas.SubsetSum
import Verif.Lemmas.Props.AdaptorBatch
import Verif.Props.AdaptorBatch
import Verif.Model.Order
import Verif.Lemmas.Props.Order
import Verif.Props.Order
import Verif.Spec.Completes
import Verif.Lemmas.Props.Completes
import Verif.Props.Completes
import Verif.Lemmas.Props.Blame
import Verif.Props.Blame
import Verif.Spec.MixedSession
import Verif.Lemmas.Props.MixedSession
import Verif.Props.MixedSession
import Verif.Spec.Opener
import Verif.Lemmas.Props.Opener
import Verif.Lemmas.Props.OpenerCode
import Verif.Props.Opener
import Verif.Spec.AllSecrets
import Verif.Lemmas.Props.AllSecrets
import Verif.Props.AllSecrets
import Verif.Spec.Completion
import Verif.Lemmas.Props.Completion
import Verif.Props.Completion
import Verif.Spec.RoundForger
import Verif.Lemmas.Props.RoundForger
import Verif.Props.RoundForger
import Verif.Spec.Restart
import Verif.Lemmas.Props.Restart
import Verif.Props.Restart
import Verif.Spec.Wire
import Verif.Lemmas.Props.Wire
import Verif.Props.Wire
import Verif.Props.AggregatorBlame
import Verif.Spec.OwnRounds
import Verif.Lemmas.Props.OwnRounds
import Verif.Props.OwnRounds
import Verif.Spec.Crash
import Verif.Lemmas.Props.Crash
import Verif.Props.Crash
import Verif.Spec.World
import Verif.Lemmas.Props.World
import Verif.Props.World
import Verif.Spec.Fair
import Verif.Lemmas.Props.Fair
import Verif.Props.Fair
import Verif.Props.LiftedEven
