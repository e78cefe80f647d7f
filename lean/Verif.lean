import Verif.Props.Term
import Verif.Props.Unify
import Verif.Props.Tv
import Verif.Props.Stamp
import Verif.Props.Rules
import Verif.Props.Usage
import Verif.Props.Mem
import Verif.Props.Task
import Verif.Props.Task2
import Verif.Props.Goal
import Verif.Props.VarIntro
import Verif.Props.Proc
import Verif.Props.Parser
import Verif.Props.Nar
import Verif.Props.Server
import Verif.Props.Pong
import Verif.Props.Map2d
import Verif.Props.Map2dMachine
import Verif.Props.Ad
import Verif.Props.MlUtils
import Verif.Props.TicTacToe
import Verif.Props.Vision
import Verif.Props.Gabor
import Verif.Props.Safe
import Verif.Props.Whole
import Verif.Props.Channel
import Verif.Props.Decl
import Verif.Props.Locks
import Verif.Props.Race
import Verif.Props.NlpNet
import Verif.Model.Programs
import Verif.Spec.Programs
import Verif.Lemmas.Programs
import Verif.Lemmas.Programs2
import Verif.Lemmas.Programs3
import Verif.Lemmas.Programs4
import Verif.Lemmas.Programs5
import Verif.Lemmas.Programs6
import Verif.Lemmas.Programs7
import Verif.Lemmas.Programs8
import Verif.Props.Programs
import Verif.Props.Programs2
import Verif.Props.Counters
import Verif.Lemmas.Rnd64
import Verif.Lemmas.TvNear
import Verif.Props.TvMachine
import Verif.Props.ParserCost
import Verif.Props.ProcRace
import Verif.Props.Rename
import Verif.Props.Thinks
import Verif.Props.Bounded
import Verif.Props.Bounded2
import Verif.Props.Ways
import Verif.Props.Chance
import Verif.Props.Everyday
import Verif.Props.Service
import Verif.Props.Meaning
import Verif.Props.Trail
import Verif.Props.Asked
import Verif.Props.Topics
import Verif.Props.Legible
import Verif.Props.Lasting
import Verif.Props.Pooled
import Verif.Props.Listing
import Verif.Props.Percept
import Verif.Props.Agree
import Verif.Props.Effort
import Verif.Props.Taught
import Verif.Props.Typing
import Verif.Props.GivenUp
import Verif.Props.Deeds
import Verif.Props.Serving
import Verif.Props.Transfer
import Verif.Props.Later
import Verif.Props.Rest
import Verif.Props.Best
import Verif.Props.Course
import Verif.Props.Longago
import Verif.Props.EverydayPrograms
import Verif.Props.MemNumbers
import Verif.Props.Typed
import Verif.Props.Apart
import Verif.Props.Again
import Verif.Props.Unprompted
import Verif.Props.Everyday2
import Verif.Props.Lives
import Verif.Props.Lives2
import Verif.Props.Pooled2
import Verif.Props.Attention
import Verif.Props.Attention2
import Verif.Props.Turns
import Verif.Props.Asking
import Verif.Props.Flood
