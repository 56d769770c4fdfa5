import Verif.Model.MoveGen
import Verif.Props.MoveGen
import Verif.Props.Nodup
import Verif.Props.Position
import Verif.Props.TryFrom
import Verif.Props.Dice
import Verif.Props.Game
import Verif.Props.DbHash
import Verif.Props.GnuId
import Verif.Props.Xgid
import Verif.Props.Fibs
import Verif.Props.FibsText
import Verif.Props.StrSpec
import Verif.Spec.XgidLine
import Verif.Props.XgidLine
import Verif.Spec.Codecs
import Verif.Props.CodecText
import Verif.Props.Release
import Verif.Props.MoveGrammar
import Verif.Props.EngineGrammar
import Verif.Props.UbgiGrammar
import Verif.Props.EngineSpec
import Verif.Props.MoveText
import Verif.Props.MoveApply
import Verif.Props.MoveLegal
import Verif.Props.TurnFlag
import Verif.Props.UbgiOptions
import Verif.Props.Ubgi
import Verif.Props.Perft
import Verif.Props.Debug
import Verif.Props.ShowBoard
import Verif.Props.Checked
import Verif.Props.Race
import Verif.Props.FromMaps
import Verif.Props.PerftDebug
import Verif.Props.PerftCli
import Verif.Props.Corpus
import Verif.Model.CheckedGame
import Verif.Props.CheckedGame
import Verif.Props.UbgiPanic
import Verif.Model.Float32
import Verif.Props.Float32
import Verif.Model.DiceText
import Verif.Props.DiceText
import Verif.Props.MoveAccept
import Verif.Props.MoveLegalExact
import Verif.Model.Buffer
import Verif.Props.Buffer
import Verif.Model.CheckedText
import Verif.Props.CheckedText
import Verif.Props.VariantLevel
import Verif.Props.MoveEncode
import Verif.Spec.CommandLine
import Verif.Props.CommandLine
import Verif.Model.Stdin
import Verif.Props.Stdin
import Verif.Model.Utf8
import Verif.Props.Utf8
import Verif.Tests.Moves
import Verif.Tests.Texts
import Verif.Spec.Deadlock
import Verif.Props.Deadlock
import Verif.Spec.History
import Verif.Props.Endless
import Verif.Props.Rounding
import Verif.Spec.Script
import Verif.Props.Scripted
import Verif.Spec.Entering
import Verif.Props.Entering
import Verif.Spec.Finish
import Verif.Proofs.Finish
import Verif.Proofs.Finish2
import Verif.Props.Finish
import Verif.Spec.Forced
import Verif.Proofs.Forced
import Verif.Props.Forced
import Verif.Spec.Random
import Verif.Props.Random
import Verif.Model.Io
import Verif.Spec.Io
import Verif.Props.Io
import Verif.Props.RandomRolls
import Verif.Model.ErrorText
import Verif.Props.ErrorText
import Verif.Spec.VariantCodecs
import Verif.Props.VariantDecode
import Verif.Model.MoveBench
import Verif.Spec.MoveBench
import Verif.Props.MoveBench
import Verif.Model.ReleaseGen
import Verif.Proofs.ReleaseGen
import Verif.Proofs.ShiftGen
import Verif.Props.ReleaseGen
import Verif.Props.ReleaseTotal
import Verif.Spec.Rank
import Verif.Proofs.Rank
import Verif.Props.Rank
import Verif.Model.ReleaseGame
import Verif.Props.ReleaseGame
import Verif.Props.ReleaseText
import Verif.Props.NodupExact
import Verif.Model.ReleaseCli
import Verif.Props.ReleaseCli
import Verif.Props.PhaseAny
import Verif.Model.ReleaseBench
import Verif.Props.ReleaseBench
import Verif.Proofs.TextDupArith
import Verif.Proofs.TextDup
import Verif.Props.TextDup
import Verif.Proofs.TextDup2
import Verif.Props.TextDupExact
import Verif.Proofs.SameText
import Verif.Props.SameText
import Verif.Props.EncodeFirst
import Verif.Spec.UbgiGame
import Verif.Props.UbgiGame
import Verif.Props.Identify
import Verif.Spec.Record
import Verif.Props.Record
import Verif.Spec.FibsErrors
import Verif.Props.FibsErrors
import Verif.Props.NoHitEpisode
