import Verif.Properties.Metrics
import Verif.Properties.Laymine
import Verif.Properties.SafeBoard
import Verif.Properties.Misc
import Verif.Properties.Game
import Verif.Properties.GameStats
import Verif.Model.Evf
import Verif.Lemmas.Evf
import Verif.Lemmas.EvfRound
import Verif.Properties.Evf
import Verif.Model.Solve
import Verif.SpecSolve
import Verif.Lemmas.Solve
import Verif.Lemmas.Chunk
import Verif.Lemmas.Direct
import Verif.Lemmas.Matrix
import Verif.Properties.Solve
import Verif.Properties.Matrix
import Verif.Model.Enum
import Verif.Lemmas.Enum
import Verif.Lemmas.Count
import Verif.Lemmas.Combine
import Verif.Lemmas.EnumExact
import Verif.Properties.Enum
import Verif.SpecNoGuess
import Verif.Model.Solvable
import Verif.Lemmas.NoGuess
import Verif.Lemmas.Fork
import Verif.Lemmas.ForkIff
import Verif.Lemmas.Solvable
import Verif.Properties.Solvable
import Verif.Model.Gen
import Verif.Lemmas.Gen
import Verif.Properties.Gen
import Verif.Model.Mark
import Verif.Lemmas.Mark
import Verif.Lemmas.Twin
import Verif.Lemmas.Chain
import Verif.Lemmas.MarkAny
import Verif.Properties.Mark
import Verif.Model.Guess
import Verif.Lemmas.Guess
import Verif.Lemmas.Border
import Verif.Lemmas.GuessChain
import Verif.Properties.Guess
import Verif.SpecPoss
import Verif.Model.Poss
import Verif.Lemmas.Poss
import Verif.Lemmas.PossCount
import Verif.Lemmas.PossSpec
import Verif.Lemmas.PossBoard
import Verif.Lemmas.PossMain
import Verif.Properties.Poss
import Verif.Properties.PossOpen
import Verif.Model.Adjust
import Verif.Lemmas.Adjust
import Verif.Properties.Adjust
import Verif.Model.Video
import Verif.Lemmas.GameSim
import Verif.Lemmas.GameWait
import Verif.SpecVideo
import Verif.Lemmas.Video
import Verif.Lemmas.Session
import Verif.Lemmas.Replay
import Verif.Properties.Video
import Verif.Model.GameBoard
import Verif.Model.Player
import Verif.Lemmas.GameBoard
import Verif.Lemmas.Player
import Verif.Lemmas.ReplayAny
import Verif.Properties.GameBoard
import Verif.Properties.Player
import Verif.Model.Parsers
import Verif.SpecFormat
import Verif.Lemmas.Parsers
import Verif.Lemmas.ParsersStable
import Verif.Lemmas.Layout
import Verif.Lemmas.LayoutAvf
import Verif.Lemmas.LayoutRmv
import Verif.Lemmas.LayoutMvf
import Verif.Lemmas.ParsersPanic
import Verif.Lemmas.ParsersCut
import Verif.Properties.Parsers
import Verif.Model.Features
import Verif.SpecFeatures
import Verif.Lemmas.Features
import Verif.Lemmas.FLRun
import Verif.Properties.Features
import Verif.Model.Stats
import Verif.SpecStats
import Verif.Lemmas.Stats
import Verif.Properties.Stats
import Verif.Properties.Valid
import Verif.Properties.Path
import Verif.Model.Sample
import Verif.Properties.Sample
import Verif.Model.EnuStep
import Verif.SpecEnu
import Verif.Properties.EnuStep
import Verif.Model.EnumComb
import Verif.SpecComb
import Verif.Properties.EnumComb
import Verif.Model.Time
import Verif.SpecTime
import Verif.Properties.Time
import Verif.Model.Save
import Verif.Properties.Save
import Verif.Model.Whole
import Verif.SpecWhole
import Verif.Properties.Whole
import Verif.Model.Bindings
import Verif.Lemmas.Bindings
import Verif.Properties.Bindings
import Verif.SpecHand
import Verif.Lemmas.Hand
import Verif.Properties.Hand
import Verif.Properties.PyBoard
import Verif.Model.Obr
import Verif.SpecObr
import Verif.Lemmas.Float32
import Verif.Lemmas.Strip
import Verif.Lemmas.ObrTotal
import Verif.Lemmas.ObrLines
import Verif.Lemmas.ObrVotes
import Verif.Lemmas.ObrComb
import Verif.Lemmas.ObrPanics
import Verif.Lemmas.ObrPicture
import Verif.Lemmas.ObrStraight
import Verif.Lemmas.ObrGrid
import Verif.Properties.Obr
import Verif.Lemmas.ObrPeaks
import Verif.Lemmas.ObrReach
import Verif.Lemmas.ObrSmall
import Verif.Properties.ObrOutside
import Verif.Properties.ObrSmall
import Verif.Model.Word
import Verif.SpecWord
import Verif.Lemmas.Word
import Verif.Properties.Word
import Verif.SpecFair
import Verif.Lemmas.Fair
import Verif.Properties.Fair
import Verif.SpecPossFloat
import Verif.Model.PossFloat
import Verif.Lemmas.PossFloatOps
import Verif.Lemmas.PossFloat
import Verif.Lemmas.PossFloatMain
import Verif.Properties.PossFloat
import Verif.Properties.PossFloatOpen
import Verif.SpecPySolve
import Verif.Model.BindingsSolve
import Verif.Lemmas.Rows
import Verif.Properties.PySolve
import Verif.SpecToggle
import Verif.Properties.Toggle
import Verif.SpecSwap
import Verif.Properties.Swap
import Verif.SpecC
import Verif.Properties.CApi
import Verif.SpecTape
import Verif.Properties.Tape
import Verif.Properties.Handle
import Verif.SpecStandard
import Verif.Properties.Standard
import Verif.Properties.Story
import Verif.Properties.Json
import Verif.Properties.Turn
import Verif.Properties.GameTurn
import Verif.Properties.Learn
import Verif.Properties.Again
import Verif.Properties.Several
import Verif.Properties.Easy
import Verif.Properties.Rounds
import Verif.Properties.RoundsTurn
import Verif.Properties.Zoom
import Verif.Properties.Moves
import Verif.Properties.Careful
import Verif.Properties.Cut
import Verif.Properties.Informed
import Verif.Properties.Secret
import Verif.Properties.Odds
import Verif.Lemmas.CountOpen
import Verif.Properties.Program
import Verif.Lemmas.Best
import Verif.Properties.Best
import Verif.SpecRisk
import Verif.Properties.Risk
import Verif.Properties.Recorded
import Verif.Properties.RiskTurn
