import Verif.Model.Basic
import Verif.Model.Boundary
import Verif.Model.Utf8
import Verif.Model.Field
import Verif.Model.Server
import Verif.Model.Tokenizer
import Verif.Spec.Stream
import Verif.Lemmas.Find
import Verif.Lemmas.Reader
import Verif.Lemmas.Consume
import Verif.Lemmas.Stable
import Verif.Lemmas.Entry
import Verif.Lemmas.Session
import Verif.Lemmas.Headers
import Verif.Spec.Parts
import Verif.Spec.Retry
import Verif.Spec.Cut
import Verif.Lemmas.Parts
import Verif.Lemmas.Retry
import Verif.Lemmas.Progress
import Verif.Lemmas.Tokenizer
import Verif.Props.Sample
import Verif.Props.Reading
import Verif.Spec.Header
import Verif.Lemmas.Case
import Verif.Props.Headers
import Verif.Lemmas.Surround
import Verif.Props.Entries
import Verif.Model.Save
import Verif.Model.Entries
import Verif.Spec.Text
import Verif.Spec.ForcedText
import Verif.Lemmas.Utf8
import Verif.Spec.Saving
import Verif.Lemmas.Save
import Verif.Lemmas.SaveField
import Verif.Props.Save
import Verif.Spec.Entries
import Verif.Spec.Dirs
import Verif.Lemmas.Entries
import Verif.Props.Requests
import Verif.Model.Client
import Verif.Spec.Client
import Verif.Spec.RoundTrip
import Verif.Spec.Injection
import Verif.Spec.OpenOpts
import Verif.Lemmas.Client
import Verif.Lemmas.RoundTrip
import Verif.Props.Client
import Verif.Props.RoundTrip
import Verif.Model.Lazy
import Verif.Spec.Lazy
import Verif.Lemmas.Lazy
import Verif.Props.Lazy
import Verif.Model.Adapters
import Verif.Spec.Adapters
import Verif.Props.Adapters
import Verif.Model.Mock
import Verif.Spec.Mock
import Verif.Props.Mock
import Verif.Model.Iron
import Verif.Spec.Iron
import Verif.Lemmas.Fuel
import Verif.Props.Iron
import Verif.Lemmas.TextLoop
import Verif.Lemmas.ForcedText
import Verif.Lemmas.Worlds
import Verif.Props.Success
import Verif.Props.Upload
import Verif.Props.IronAccept
import Verif.Props.Retry
import Verif.Lemmas.Cut
import Verif.Props.Cut
import Verif.Model.LazyHyper
import Verif.Spec.LazyHyper
import Verif.Props.LazyHyper
import Verif.Model.DataReader
import Verif.Spec.DataReader
import Verif.Props.DataReader
import Verif.Model.Owned
import Verif.Spec.Owned
import Verif.Props.Owned
import Verif.Lemmas.Dirs
import Verif.Spec.Whole
import Verif.Props.Whole
import Verif.Props.Cleared
import Verif.Model.TempDir
import Verif.Spec.Settings
import Verif.Props.Settings
import Verif.Props.TempDir
import Verif.Spec.Integrations
import Verif.Props.Integrations
import Verif.Props.Split
import Verif.Props.Limits
import Verif.Model.Examples
import Verif.Spec.Examples
import Verif.Props.Examples
import Verif.Model.Tools
import Verif.Spec.Tools
import Verif.Props.Tools
import Verif.Spec.Usage
import Verif.Props.Usage
import Verif.Model.LocalTest
import Verif.Spec.LocalTest
import Verif.Props.LocalTest
import Verif.Props.Disposition
import Verif.Spec.Small
import Verif.Lemmas.Held
import Verif.Props.SmallReads
import Verif.Props.Stuck
import Verif.Model.ExampleClients
import Verif.Spec.ExampleClients
import Verif.Props.ExampleClients
import Verif.Spec.Collisions
import Verif.Props.Collisions
import Verif.Props.SavedReads
import Verif.Model.InterceptExample
import Verif.Props.InterceptExample
import Verif.Props.MinBuffer
import Verif.Props.Oversize
import Verif.Props.SmallBodies
import Verif.Props.IronOversize
import Verif.Props.HeaderErrors
import Verif.Props.Injection
import Verif.Props.OpenOpts
import Verif.Spec.ReadSizes
import Verif.Lemmas.Arrive
import Verif.Lemmas.Leak
import Verif.Props.Leak
import Verif.Lemmas.LeakSave
import Verif.Spec.Skip
import Verif.Lemmas.Skip
import Verif.Props.Skip
import Verif.Props.LeakSave
import Verif.Lemmas.Keeps
import Verif.Lemmas.Whole
import Verif.Props.ReadAhead
import Verif.Lemmas.Shown
import Verif.Props.Exceeds
import Verif.Props.IronSkip
import Verif.Props.Loses
import Verif.Props.BadSkip
import Verif.Props.RetryLoses
import Verif.Props.LazyLoses
import Verif.Props.Passes
import Verif.Props.Differs
import Verif.Props.TextBytes
import Verif.Props.FileNames
import Verif.Props.OtherClients
import Verif.Props.HeaderOrder
import Verif.Props.Wire
import Verif.Spec.ServerLife
import Verif.Props.ServerLife
import Verif.Spec.BadPart
import Verif.Props.BadPart
import Verif.Spec.Tolerant
import Verif.Props.Tolerant
import Verif.Spec.Forward
import Verif.Props.Forward
import Verif.Spec.Resume
import Verif.Props.Resume
import Verif.Spec.AnyBody
import Verif.Props.NoBody
import Verif.Props.AnyBody
import Verif.Props.Work
import Verif.Props.Causal
import Verif.Props.Raise
import Verif.Props.CausalSave
import Verif.Model.Nested
import Verif.Props.Nested
import Verif.Lemmas.Loss
import Verif.Props.Bounded
import Verif.Spec.ContentType
import Verif.Props.ContentType
import Verif.Spec.DiskUse
import Verif.Lemmas.Grow
import Verif.Props.DiskUse
import Verif.Props.IronUse
import Verif.Model.Threads
import Verif.Spec.Threads
import Verif.Props.Threads
import Verif.Model.ExampleDisk
import Verif.Spec.ExampleDisk
import Verif.Props.ExampleDisk
import Verif.Model.Workers
import Verif.Spec.Workers
import Verif.Props.Workers
import Verif.Spec.Padding
import Verif.Props.Padding
import Verif.Spec.MidLine
import Verif.Props.MidLine
import Verif.Model.IronWorkers
import Verif.Spec.IronWorkers
import Verif.Props.IronWorkers
import Verif.Spec.Solo
import Verif.Lemmas.Solo
import Verif.Props.Solo
import Verif.Props.IronRoom
import Verif.Props.Decided
import Verif.Model.WriteSteps
import Verif.Spec.WriteSteps
import Verif.Lemmas.WriteSteps
import Verif.Props.WriteSteps
import Verif.Props.Crash
import Verif.Props.Kinds
import Verif.Props.FineLive
import Verif.Props.Splice
import Verif.Props.SameBytes
import Verif.Props.Store
import Verif.Props.SameSave
import Verif.Props.LegalBoundary
import Verif.Props.LazyPull
import Verif.Props.FullMeansAll
import Verif.Props.EndMeansAll
import Verif.Props.Confirmed
import Verif.Props.AnyClient
import Verif.Props.AnySaved
import Verif.UnitTests
import Verif.Audit
