import Verif.Basic
import Verif.Num
import Verif.Utf8
import Verif.Folder
import Verif.FolderLemmas
import Verif.Spec.Folding
import Verif.FoldingProofs
import Verif.Props.Folding
import Verif.Unfolder
import Verif.UnfolderLemmas
import Verif.UnfolderRuns
import Verif.UnfolderTerm
import Verif.Props.Unfolding
import Verif.Tokeniser
import Verif.Spec.ContentLine
import Verif.TokeniserLemmas
import Verif.Props.ContentLine
import Verif.Text
import Verif.Duration
import Verif.Spec.Duration
import Verif.DurationLemmas
import Verif.Scalars
import Verif.Spec.Values
import Verif.ScalarLemmas
import Verif.Props.Scalars
import Verif.Calendar
import Verif.Time
import Verif.Spec.Time
import Verif.TimeLemmas
import Verif.Props.Time
import Verif.Recur
import Verif.Spec.Recur
import Verif.RecurLemmas
import Verif.RecurRange
import Verif.Props.Recur
import Verif.Value
import Verif.ValueLemmas
import Verif.Props.Values
import Verif.Param
import Verif.Spec.Params
import Verif.ParamLemmas
import Verif.Property
import Verif.Section
import Verif.Tables
import Verif.Codec
import Verif.Props.Params
import Verif.PropertyLemmas
import Verif.Props.Property
import Verif.SectionLemmas
import Verif.EncodeLemmas
import Verif.CodecLemmas
import Verif.Spec.Document
import Verif.DocumentLemmas
import Verif.ReturnLemmas
import Verif.ByteLemmas
import Verif.WholeLemmas
import Verif.Props.Sample
import Verif.Props.Encode
import Verif.Props.RoundTrip
import Verif.Spec.Structure
import Verif.PanicLemmas
import Verif.LocalLemmas
import Verif.StructureLemmas
import Verif.DecodedLemmas
import Verif.Props.Decode
import Verif.Spec.Edits
import Verif.VariantLemmas
import Verif.InsideLemmas
import Verif.EditLemmas
import Verif.Props.Edits
import Verif.ValidLemmas
import Verif.Spec.Valid
import Verif.Props.Valid
import Verif.TruncLemmas
import Verif.Props.Truncation
import Verif.Spec.PropertyLine
import Verif.PropLineLemmas
import Verif.Spec.Rfc
import Verif.Spec.RfcExact
import Verif.RfcLemmas
import Verif.RfcExactLemmas
import Verif.Props.Rfc
import Verif.Spec.Alike
import Verif.Props.Alike
import Verif.Spec.RfcValues
import Verif.Props.RfcValues
import Verif.RuleLemmas
import Verif.Props.Rule
import Verif.Spec.Rule
import Verif.Spec.TimeMeaning
import Verif.TimeMeaningLemmas
import Verif.Spec.Meaning
import Verif.MeaningLemmas
import Verif.FineLemmas
import Verif.Props.Meaning
import Verif.Spec.Again
import Verif.AgainLemmas
import Verif.Props.Again
import Verif.Spec.LocalTime
import Verif.LocalTimeLemmas
import Verif.Props.LocalTime
import Verif.Spec.Reading
import Verif.ReadingLemmas
import Verif.Props.Reading
import Verif.EarlyLemmas
import Verif.Props.Early
import Verif.Spec.Compose
import Verif.ComposeLemmas
import Verif.Props.Compose
import Verif.Props.Injective
import Verif.Unused
import Verif.Spec.Enums
import Verif.Props.Enums
import Verif.Spec.Waiting
import Verif.WaitingLemmas
import Verif.Props.Waiting
import Verif.CutLemmas
import Verif.OpenLemmas
import Verif.PlaceLemmas
import Verif.Spec.Panics
import Verif.CrashLemmas
import Verif.Props.Cut
import Verif.Machine
import Verif.Spec.Fault
import Verif.FaultLemmas
import Verif.VerdictLemmas
import Verif.Props.Fault
import Verif.Spec.Errors
import Verif.ErrorLemmas
import Verif.Props.Errors
import Verif.Spec.Exact
import Verif.ExactLemmas
import Verif.Props.Exact
import Verif.Spec.Exchange
import Verif.ExchangeLemmas
import Verif.Props.Exchange
import Verif.Spec.Machines
import Verif.MachinesLemmas
import Verif.Props.Machines
import Verif.OctetLemmas
import Verif.Props.Octets
import Verif.RepoTests
import Verif.Spec.Written
import Verif.WrittenLemmas
import Verif.Props.Written
import Verif.Spec.WrittenDoc
import Verif.WrittenDocLemmas
import Verif.Props.WrittenDoc
import Verif.ReturnExactLemmas
import Verif.Props.ReturnExact
import Verif.TextOctets
import Verif.Props.TextOctets
import Verif.Spec.Wrong
import Verif.Spec.TextFault
import Verif.WrongLemmas
import Verif.TextFaultLemmas
import Verif.Props.Wrong
import Verif.Spec.Refused
import Verif.RefusedLemmas
import Verif.Props.Refused
import Verif.Pointers
import Verif.Spec.Pointers
import Verif.PointersLemmas
import Verif.Props.Pointers
import Verif.Depth
import Verif.Spec.Depth
import Verif.DepthLemmas
import Verif.Props.Depth
import Verif.Message
import Verif.Spec.Message
import Verif.MessageLemmas
import Verif.Props.Message
import Verif.Refusal
import Verif.Spec.Refusal
import Verif.RefusalLemmas
import Verif.Props.Refusal
import Verif.Spec.Writable
import Verif.LooseLemmas
import Verif.Props.Exactly
import Verif.Wording
import Verif.Spec.Wording
import Verif.WordingLemmas
import Verif.Props.Wording
import Verif.Spec.Cuts
import Verif.UnfolderCuts
import Verif.UnfolderCount
import Verif.Props.Cuts
import Verif.Props.Count
import Verif.Spec.ComposeExact
import Verif.ComposeExactLemmas
import Verif.EverywhereLemmas
import Verif.Props.Everywhere
import Verif.NestLemmas
import Verif.Spec.ExactEach
import Verif.Spec.Readable
import Verif.ReadableLemmas
import Verif.Props.Readable
import Verif.Spec.Unbroken
import Verif.UnbrokenLemmas
import Verif.Props.Unbroken
import Verif.Spec.Found
import Verif.FoundLemmas
import Verif.SettledLemmas
import Verif.StaysLemmas
import Verif.Props.Found
import Verif.Props.Stays
import Verif.Spec.Looked
import Verif.LookedLemmas
import Verif.LookedValueLemmas
import Verif.Props.Looked
import Verif.Props.LineEnds
import Verif.Spec.FoldingOctets
import Verif.FolderOctets
import Verif.Props.FoldingOctets
import Verif.Spec.Size
import Verif.SizeLemmas
import Verif.Props.Size
import Verif.Spec.Pieces
import Verif.PiecesLemmas
import Verif.Props.Pieces
import Verif.Spec.Spelling
import Verif.Props.Spelling
import Verif.Props.Cases
import Verif.Spec.Output
import Verif.OutputLemmas
import Verif.FoldSizeLemmas
import Verif.DecodedOutputLemmas
import Verif.OutsideLemmas
import Verif.Props.Output
import Verif.Spec.Calls
import Verif.CallsLemmas
import Verif.Props.Calls
import Verif.Props.MoreCases
import Verif.TimeOfDayLemmas
import Verif.Writer
import Verif.Spec.Writer
import Verif.WriterLemmas
import Verif.Props.Writer
import Verif.Spec.GoTypes
import Verif.GoTypesLemmas
import Verif.Props.GoTypes
import Verif.Spec.Characters
import Verif.CharacterLemmas
import Verif.CharacterWriteLemmas
import Verif.Props.Characters
import Verif.Emit
import Verif.Spec.Emit
import Verif.EmitLemmas
import Verif.StuckLemmas
import Verif.CallSizeLemmas
import Verif.Props.Emit
import Verif.Props.Readers
import Verif.Props.LastCases
import Verif.Raw
import Verif.Spec.Raw
import Verif.RawLemmas
import Verif.RawUtf8
import Verif.RawKeep
import Verif.Props.Raw
import Verif.RawPut
import Verif.RawEmit
import Verif.RawEmitLemmas
import Verif.Props.RawCalls
import Verif.NeverLemmas
import Verif.Props.Never
import Verif.Memory
import Verif.Spec.Memory
import Verif.MemoryLemmas
import Verif.Props.Memory
import Verif.Shared
import Verif.Spec.Shared
import Verif.SharedLemmas
import Verif.Props.Shared
import Verif.Demand
import Verif.Spec.Demand
import Verif.DemandLemmas
import Verif.Props.Demand
import Verif.Tokens
import Verif.Spec.Tokens
import Verif.TokensLemmas
import Verif.Props.Tokens
import Verif.Scanned
import Verif.ScannedLemmas
import Verif.Props.Scanned
import Verif.Spec.DepthExact
import Verif.DepthExactLemmas
import Verif.Props.DepthExact
import Verif.Failing
import Verif.FailingLemmas
import Verif.Props.Failing
import Verif.Props.LongLine
import Verif.Spec.Tight
import Verif.TightLemmas
import Verif.PipeLemmas
import Verif.Spec.Pipe
import Verif.Props.Pipe
import Verif.RunLemmas
import Verif.Props.Runs
import Verif.WaitingAll
import Verif.Props.WaitingAll
import Verif.WaitingFolds
import Verif.Props.WaitingFolds
import Verif.Props.Taken
import Verif.FewCalls
import Verif.Props.HowOften
import Verif.FewWrites
import Verif.AtLeast
import Verif.Props.HowMany
import Verif.LastLineEnd
import Verif.Props.LeftBehind
import Verif.HangLemmas
import Verif.Spec.Stuck
import Verif.HangExact
import Verif.Props.Stuck
import Verif.RetryLemmas
import Verif.RetryOctets
import Verif.Props.Retry
import Verif.Props.RetryOctets
import Verif.Props.Appended
