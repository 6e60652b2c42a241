import Verif.Cat.Arrival
import Verif.Cat.Model
import Verif.Cat.Props
import Verif.Cat.Waiting
import Verif.Cksum.Algebra
import Verif.Cksum.Arrival
import Verif.Cksum.Errors
import Verif.Cksum.Lemmas
import Verif.Cksum.Model
import Verif.Cksum.Props
import Verif.Cksum.Spec
import Verif.Cmp.Arrival
import Verif.Cmp.Model
import Verif.Cmp.Props
import Verif.Cmp.Rebuild
import Verif.Cmp.Relations
import Verif.Cmp.Three
import Verif.Cmp.Waiting
import Verif.Cost.Diff
import Verif.Cost.Ed
import Verif.Cost.Peg
import Verif.Cost.Regex
import Verif.Cost.TSort
import Verif.Cost.Txt
import Verif.Cut.CommandLine
import Verif.Cut.CommandLineProps
import Verif.Cut.Model
import Verif.Cut.Props
import Verif.Diff.Arrival
import Verif.Diff.Cmd
import Verif.Diff.CmdProps
import Verif.Diff.First
import Verif.Diff.Lemmas
import Verif.Diff.Messages
import Verif.Diff.Minimal
import Verif.Diff.Mirror
import Verif.Diff.Model
import Verif.Diff.OneEdit
import Verif.Diff.Patch
import Verif.Diff.PatchProps
import Verif.Diff.Props
import Verif.Diff.Renamed
import Verif.Diff.Sections
import Verif.Diff.Spec
import Verif.Diff.StringProps
import Verif.Ed.Alike
import Verif.Ed.AnyFile
import Verif.Ed.AnyText
import Verif.Ed.Arrival
import Verif.Ed.Backwards
import Verif.Ed.BlankEnd
import Verif.Ed.Blind
import Verif.Ed.BlockProps
import Verif.Ed.BlockRest
import Verif.Ed.ComeBack
import Verif.Ed.Command
import Verif.Ed.Confined
import Verif.Ed.CurrentProps
import Verif.Ed.Durable
import Verif.Ed.EchoProps
import Verif.Ed.EditProps
import Verif.Ed.Editor
import Verif.Ed.EndToEnd
import Verif.Ed.Fate
import Verif.Ed.Grammar
import Verif.Ed.GrammarProps
import Verif.Ed.History
import Verif.Ed.Huge
import Verif.Ed.Kept
import Verif.Ed.Laws
import Verif.Ed.Lemmas
import Verif.Ed.Library
import Verif.Ed.LineForms
import Verif.Ed.LineSound
import Verif.Ed.Links
import Verif.Ed.LinksProps
import Verif.Ed.LongLines
import Verif.Ed.NonAscii
import Verif.Ed.Notes
import Verif.Ed.NotesMix
import Verif.Ed.Offsets
import Verif.Ed.OneTest
import Verif.Ed.OpenEnd
import Verif.Ed.OpenEndCut
import Verif.Ed.Operand
import Verif.Ed.OtherCommands
import Verif.Ed.ParseProps
import Verif.Ed.Peg
import Verif.Ed.PegCommands
import Verif.Ed.PegLemmas
import Verif.Ed.PegMachine
import Verif.Ed.PegMachineProps
import Verif.Ed.PegMax
import Verif.Ed.PegMaxProps
import Verif.Ed.PegProps
import Verif.Ed.PegQuote
import Verif.Ed.PegTree
import Verif.Ed.PegTreeProps
import Verif.Ed.Process
import Verif.Ed.ProcessProps
import Verif.Ed.QuitProps
import Verif.Ed.Race
import Verif.Ed.RaceProps
import Verif.Ed.Readers
import Verif.Ed.Retry
import Verif.Ed.Returns
import Verif.Ed.SaveProps
import Verif.Ed.SearchProps
import Verif.Ed.Shared
import Verif.Ed.Shown
import Verif.Ed.Spec
import Verif.Ed.Special
import Verif.Ed.Together
import Verif.Ed.Typed
import Verif.Ed.TypedProps
import Verif.Ed.TypedRun
import Verif.Ed.Unsupported
import Verif.Ed.Uttered
import Verif.Ed.Visit
import Verif.Ed.Waiting
import Verif.Files.Limits
import Verif.Flag.IntProps
import Verif.Flag.Laws
import Verif.Flag.MixedProps
import Verif.Flag.Model
import Verif.Flag.Props
import Verif.Flag.RegisterProps
import Verif.Go.AtoiErrors
import Verif.Go.Basic
import Verif.Go.Drain
import Verif.Go.FlagLib
import Verif.Go.Lines
import Verif.Go.LinesProps
import Verif.Go.ParseInt
import Verif.Go.Printf
import Verif.Go.PrintfProps
import Verif.Go.Process
import Verif.Go.Quote
import Verif.Go.QuoteProps
import Verif.Go.Scanner
import Verif.Go.ScannerProps
import Verif.Go.ScannerWords
import Verif.Go.Sink
import Verif.Go.Strconv
import Verif.Go.StrconvProps
import Verif.Go.Strings
import Verif.Go.Trim
import Verif.Go.Utf8
import Verif.Go.Utf8Last
import Verif.Go.Utf8Props
import Verif.Go.Waiting
import Verif.Go.Words
import Verif.Head.Arrival
import Verif.Head.Left
import Verif.Head.Model
import Verif.Head.Prefix
import Verif.Head.Props
import Verif.Head.Waiting
import Verif.Kill.Messages
import Verif.Kill.Model
import Verif.Kill.Props
import Verif.Locale.Arrangement
import Verif.Locale.Beginning
import Verif.Locale.CollateFile
import Verif.Locale.Comments
import Verif.Locale.CommentsProps
import Verif.Locale.Dos
import Verif.Locale.EndToEnd
import Verif.Locale.Env
import Verif.Locale.EnvProps
import Verif.Locale.ErrorMessage
import Verif.Locale.ErrorPlace
import Verif.Locale.Escapes
import Verif.Locale.File
import Verif.Locale.FileParse
import Verif.Locale.Grammar
import Verif.Locale.ItemChecks
import Verif.Locale.Items
import Verif.Locale.Lexer
import Verif.Locale.LexerDecided
import Verif.Locale.LexerLemmas
import Verif.Locale.LexerRounds
import Verif.Locale.LexerStops
import Verif.Locale.Mistakes
import Verif.Locale.Packed
import Verif.Locale.Parser
import Verif.Locale.ParserChecks
import Verif.Locale.ParserComplete
import Verif.Locale.ParserExact
import Verif.Locale.ParserLemmas
import Verif.Locale.ParserMeaning
import Verif.Locale.ParserProps
import Verif.Locale.ReadBack
import Verif.Locale.Remains
import Verif.Locale.Sent
import Verif.Locale.SharedEscape
import Verif.Locale.Tables
import Verif.Locale.Viable
import Verif.Output.Commands
import Verif.Output.Editor
import Verif.Output.Pipe
import Verif.Regex.Laws
import Verif.Regex.Match
import Verif.Regex.Model
import Verif.Regex.Parse
import Verif.Regex.Props
import Verif.Regex.Quoting
import Verif.Regex.Spec
import Verif.TSort.Apart
import Verif.TSort.Arrival
import Verif.TSort.Checked
import Verif.TSort.Implied
import Verif.TSort.Lemmas
import Verif.TSort.Model
import Verif.TSort.OrderProps
import Verif.TSort.Props
import Verif.TSort.Renamed
import Verif.TSort.Rewritten
import Verif.TSort.Spec
import Verif.Test.Laws
import Verif.Test.Messages
import Verif.Test.Model
import Verif.Test.Props
import Verif.Tools.DiffEd
import Verif.Tools.EndOfOptions
import Verif.Tools.LineNumbers
import Verif.Tools.Together
import Verif.Txt.Heap
import Verif.Txt.HeapProps
import Verif.Txt.Laws
import Verif.Txt.Lemmas
import Verif.Txt.Memory
import Verif.Txt.MemoryProps
import Verif.Txt.Model
import Verif.Txt.NegativeProps
import Verif.Txt.Origin
import Verif.Txt.PastEnd
import Verif.Txt.Props
import Verif.Txt.Shared
import Verif.Txt.Spec
