import Verif.Cases.Alias
import Verif.Cases.Basic
import Verif.Cases.Bias
import Verif.Cases.Check
import Verif.Cases.Config
import Verif.Cases.ConfigSign
import Verif.Cases.Construct
import Verif.Cases.ConstructError
import Verif.Cases.Crashes
import Verif.Cases.Duplicates
import Verif.Cases.Errors
import Verif.Cases.Flood
import Verif.Cases.Forger
import Verif.Cases.HashToGroup
import Verif.Cases.Json
import Verif.Cases.Keygen
import Verif.Cases.Keys
import Verif.Cases.Life
import Verif.Cases.Memory
import Verif.Cases.Network
import Verif.Cases.NilPayload
import Verif.Cases.Pointers
import Verif.Cases.PointersEnv
import Verif.Cases.Points
import Verif.Cases.Print
import Verif.Cases.Programs
import Verif.Cases.Random
import Verif.Cases.Receiver
import Verif.Cases.Recover
import Verif.Cases.Replay
import Verif.Cases.Reuse
import Verif.Cases.Routines
import Verif.Cases.RoutinesHeap
import Verif.Cases.Session
import Verif.Cases.Sign
import Verif.Cases.Split
import Verif.Cases.State
import Verif.Cases.Timing
import Verif.Cases.Traffic
import Verif.Cases.Unfair
import Verif.Cases.Unforgeable
import Verif.Cases.Unsorted
import Verif.Cases.ZeroID
import Verif.Curve.Code
import Verif.Curve.Differ
import Verif.Curve.Edwards
import Verif.Curve.Encode
import Verif.Curve.Even
import Verif.Curve.Fp
import Verif.Curve.Group
import Verif.Curve.Map
import Verif.Curve.Order
import Verif.Curve.Params
import Verif.Curve.Point
import Verif.Lemmas.Alias
import Verif.Lemmas.Base64
import Verif.Lemmas.Bytes
import Verif.Lemmas.Channel
import Verif.Lemmas.ChannelDone
import Verif.Lemmas.ChannelEnd
import Verif.Lemmas.ChannelRun
import Verif.Lemmas.ChannelStuck
import Verif.Lemmas.Cmd
import Verif.Lemmas.Crashes
import Verif.Lemmas.Eddsa
import Verif.Lemmas.ErrorValue
import Verif.Lemmas.Fair
import Verif.Lemmas.Fork
import Verif.Lemmas.Forward
import Verif.Lemmas.Group
import Verif.Lemmas.Heap
import Verif.Lemmas.Hits
import Verif.Lemmas.Json
import Verif.Lemmas.JsonKeys
import Verif.Lemmas.JsonRender
import Verif.Lemmas.JsonString
import Verif.Lemmas.JsonText
import Verif.Lemmas.JsonWrite
import Verif.Lemmas.Keygen
import Verif.Lemmas.KeygenInv
import Verif.Lemmas.LocalFork
import Verif.Lemmas.Memory
import Verif.Lemmas.Messages
import Verif.Lemmas.Net
import Verif.Lemmas.NetTime
import Verif.Lemmas.OneMore
import Verif.Lemmas.Outcome
import Verif.Lemmas.Party
import Verif.Lemmas.Pointers
import Verif.Lemmas.PointersEnv
import Verif.Lemmas.Polynomial
import Verif.Lemmas.Pratt
import Verif.Lemmas.Primes
import Verif.Lemmas.Prompt
import Verif.Lemmas.PromptExists
import Verif.Lemmas.PromptSharp
import Verif.Lemmas.Race
import Verif.Lemmas.RaceState
import Verif.Lemmas.Random
import Verif.Lemmas.Recover
import Verif.Lemmas.Sha512
import Verif.Lemmas.Sign
import Verif.Lemmas.SignInv
import Verif.Lemmas.Sim
import Verif.Lemmas.Simulate
import Verif.Lemmas.Stage
import Verif.Lemmas.State
import Verif.Lemmas.StateFirst
import Verif.Lemmas.StateHist
import Verif.Lemmas.StateInv
import Verif.Lemmas.StateOrder
import Verif.Lemmas.Teardown
import Verif.Lemmas.Timing
import Verif.Lemmas.Toy
import Verif.Lemmas.Udp
import Verif.Model.Alias
import Verif.Model.Base64
import Verif.Model.Bytes
import Verif.Model.Channel
import Verif.Model.Cmd
import Verif.Model.Construct
import Verif.Model.ConstructError
import Verif.Model.Ed25519
import Verif.Model.Eddsa
import Verif.Model.ErrorValue
import Verif.Model.Example
import Verif.Model.Field
import Verif.Model.Frosted
import Verif.Model.Go
import Verif.Model.Group
import Verif.Model.Heap
import Verif.Model.Helpers
import Verif.Model.Integration
import Verif.Model.Json
import Verif.Model.JsonText
import Verif.Model.Keygen
import Verif.Model.Map
import Verif.Model.Marshalling
import Verif.Model.Messages
import Verif.Model.NilPayload
import Verif.Model.Party
import Verif.Model.Point
import Verif.Model.Pointers
import Verif.Model.PointersEnv
import Verif.Model.Polynomial
import Verif.Model.Print
import Verif.Model.Race
import Verif.Model.Random
import Verif.Model.Receiver
import Verif.Model.Recover
import Verif.Model.Ristretto
import Verif.Model.Routines
import Verif.Model.RoutinesHeap
import Verif.Model.Scalar
import Verif.Model.Schnorr
import Verif.Model.Sha512
import Verif.Model.Sign
import Verif.Model.Slice
import Verif.Model.State
import Verif.Model.Teardown
import Verif.Model.Timing
import Verif.Model.Udp
import Verif.Model.UnitTest
import Verif.Props.Agree
import Verif.Props.Alias
import Verif.Props.AliasIDs
import Verif.Props.Bias
import Verif.Props.Channel
import Verif.Props.Check
import Verif.Props.Cmd
import Verif.Props.Config
import Verif.Props.ConfigSign
import Verif.Props.Construct
import Verif.Props.ConstructError
import Verif.Props.Crash
import Verif.Props.Crashes
import Verif.Props.Demo
import Verif.Props.Domain
import Verif.Props.Duplicates
import Verif.Props.Eddsa
import Verif.Props.EndToEnd
import Verif.Props.Errors
import Verif.Props.Example
import Verif.Props.ExampleMain
import Verif.Props.Fair
import Verif.Props.Flood
import Verif.Props.Forger
import Verif.Props.Frosted
import Verif.Props.HashToGroup
import Verif.Props.Heap
import Verif.Props.Helpers
import Verif.Props.Integration
import Verif.Props.Json
import Verif.Props.Keygen
import Verif.Props.KeygenAbort
import Verif.Props.KeygenJson
import Verif.Props.KeygenNet
import Verif.Props.KeygenOut
import Verif.Props.KeygenRogue
import Verif.Props.Life
import Verif.Props.Marshalling
import Verif.Props.Memory
import Verif.Props.Messages
import Verif.Props.NetTime
import Verif.Props.NilPayload
import Verif.Props.Once
import Verif.Props.Order
import Verif.Props.Party
import Verif.Props.Pointers
import Verif.Props.PointersEnv
import Verif.Props.Polynomial
import Verif.Props.Print
import Verif.Props.Prompt
import Verif.Props.Race
import Verif.Props.Random
import Verif.Props.RandomView
import Verif.Props.Receiver
import Verif.Props.Recover
import Verif.Props.Replay
import Verif.Props.Reuse
import Verif.Props.Ristretto
import Verif.Props.Routines
import Verif.Props.RoutinesHeap
import Verif.Props.Schnorr
import Verif.Props.Sha512
import Verif.Props.Sign
import Verif.Props.SignAgree
import Verif.Props.SignBind
import Verif.Props.SignBlame
import Verif.Props.SignNet
import Verif.Props.SignView
import Verif.Props.Split
import Verif.Props.SplitRest
import Verif.Props.State
import Verif.Props.Teardown
import Verif.Props.Timing
import Verif.Props.Traffic
import Verif.Props.Udp
import Verif.Props.Unfair
import Verif.Props.Unforgeable
import Verif.Props.UnitTest
import Verif.Props.Unsorted
import Verif.Props.View
import Verif.Props.ZeroID
import Verif.Spec.Alias
import Verif.Spec.Base64
import Verif.Spec.Bytes
import Verif.Spec.Ed25519
import Verif.Spec.Errors
import Verif.Spec.Fair
import Verif.Spec.Flood
import Verif.Spec.Forger
import Verif.Spec.GoMem
import Verif.Spec.Json
import Verif.Spec.JsonText
import Verif.Spec.Life
import Verif.Spec.Memory
import Verif.Spec.Messages
import Verif.Spec.Net
import Verif.Spec.NetTime
import Verif.Spec.OneMore
import Verif.Spec.Party
import Verif.Spec.Poly
import Verif.Spec.Print
import Verif.Spec.Prompt
import Verif.Spec.Random
import Verif.Spec.RandomView
import Verif.Spec.Reuse
import Verif.Spec.Ristretto
import Verif.Spec.Sha512
import Verif.Spec.Sign
import Verif.Spec.SignShare
import Verif.Spec.SignView
import Verif.Spec.State
import Verif.Spec.View
import Verif.Spec.Weight
import Verif.Vectors.Ed25519
import Verif.Vectors.Ristretto
