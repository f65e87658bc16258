import Verif.Props.Words
import Verif.Props.Tables
import Verif.Props.Input
import Verif.Props.Pinned
import Verif.Props.RafsiTable
import Verif.Props.Termination
import Verif.Props.Letters
import Verif.Props.Compounds
import Verif.Props.Zihevla
import Verif.Props.Analytics
import Verif.Props.Search
import Verif.Props.Veljvo
import Verif.Props.Readings
import Verif.Props.Options
import Verif.Props.Lujvo
import Verif.Props.Back
import Verif.Props.RoundTrip
import Verif.Props.Cluster
import Verif.Props.Score
import Verif.Props.Exceptions
import Verif.Props.ZihevlaWords
import Verif.Props.Segregation
import Verif.Props.Extended
import Verif.Props.Cli
import Verif.Props.Unread
import Verif.Props.BackWords
import Verif.Props.BackCmevla
import Verif.Props.RoundTripWords
import Verif.Props.RoundTripCmevla
import Verif.Props.Relax
import Verif.Props.Found
import Verif.Props.FoundWords
import Verif.Props.Looser
import Verif.Props.Mz
import Verif.Props.MzFound
import Verif.Props.Consonants
import Verif.Props.MakeRafsi
import Verif.Props.Remade
import Verif.Props.Injective
import Verif.Props.Length
import Verif.Props.Experimental
import Verif.Props.ForceY
import Verif.Props.Displayed
import Verif.Props.Between
import Verif.Props.Helpers
import Verif.Props.Shortest
import Verif.Props.Depth
import Verif.Props.Work
import Verif.Props.Sentinel
import Verif.Props.TestLists
import Verif.Props.Again
import Verif.Props.AgainCmevla
import Verif.Props.Calls
import Verif.Props.Js
import Verif.Props.JsErrors
import Verif.Props.RsSettings
import Verif.Props.FirstPart
import Verif.Props.Joined
import Verif.Props.Raises
import Verif.Props.JsAgree
import Verif.Props.RsTarmi
import Verif.Props.RsLujvo
import Verif.Props.RsApi
import Verif.Props.RsAnalyse
import Verif.Props.RsCheck
import Verif.Props.RsVeljvo
import Verif.Props.RsOwn
import Verif.Props.RsRound
import Verif.Props.RsBest
import Verif.Props.RsCmevla
import Verif.Props.RsNoY
import Verif.Props.Three
import Verif.Props.RsWhole
import Verif.Props.RsAll
import Verif.Props.RsConsonant
import Verif.Props.RsWritten
