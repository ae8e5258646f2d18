import Verif.Model.Server
import Verif.Model.Config
import Verif.Props.Num
import Verif.Props.Strings
import Verif.Props.KeysCmd
import Verif.Props.Hash
import Verif.Props.LPos
import Verif.Props.SetMove
import Verif.Props.Frames
import Verif.Props.Dispatch
import Verif.Props.Handle
import Verif.Props.Expired
import Verif.Props.ExpiredAny
import Verif.Props.Table
import Verif.Props.Config
import Verif.Props.DList
import Verif.Props.KeysRace
import Verif.Props.Serial
import Verif.Props.Whole
import Verif.Props.TableConc
import Verif.Props.Heap
import Verif.Props.Arity
import Verif.Props.Link
import Verif.Model.Hub
import Verif.Props.Linear
import Verif.Props.LinearEx
import Verif.Lib.Command
import Verif.Model.Full
import Verif.Props.Full
import Verif.Props.FullAlone
import Verif.Props.Apart
import Verif.Props.Endless
import Verif.Props.Serve
import Verif.Model.Accept
import Verif.Props.Accept
import Verif.Model.Logger
import Verif.Model.Listen
import Verif.Props.Logger
import Verif.Props.Listen
import Verif.Model.Sink
import Verif.Props.Sink
import Verif.Props.Ipv6
import Verif.Props.Tests
import Verif.Model.Piece
import Verif.Props.Piece
import Verif.Props.PieceEx
import Verif.Props.Derail
import Verif.Props.Fatal
import Verif.Props.Sift
import Verif.Props.Corners
import Verif.Props.Tokens
import Verif.Props.Queue
import Verif.Props.Forms
import Verif.Model.Float64
import Verif.SpecFloat
import Verif.Lib.Float
import Verif.Lib.FloatText
import Verif.Lib.FloatRead
import Verif.Lib.FloatWrite
import Verif.Lib.FloatFmt
import Verif.Props.Floats
import Verif.Props.Tickets
import Verif.Lib.FloatSyntax
import Verif.Lib.FloatAccept
import Verif.Props.FloatTexts
import Verif.Props.Ping
import Verif.Props.Latch
import Verif.Model.Flags
import Verif.Props.Flags
import Verif.Props.Lease
import Verif.Props.Shuttle
import Verif.Props.Group
import Verif.Lib.Swap
import Verif.Lib.Veil
import Verif.Props.VeilCmds
import Verif.Props.Unseen
import Verif.Props.Fair
import Verif.Props.Starve
import Verif.Props.Journal
import Verif.Props.Pool
import Verif.Lib.Plain
import Verif.Props.PlainCmds
import Verif.Props.Source
import Verif.Props.Busy
import Verif.Props.Record
import Verif.Props.Board
import Verif.Props.Publish
import Verif.Props.Register
import Verif.Lib.Spend
import Verif.Props.Bound
import Verif.Props.Timeline
import Verif.Props.Ledger
import Verif.Props.EndToEnd
import Verif.Lib.Fade
import Verif.Props.FadeCmds
import Verif.Props.Fade
import Verif.Props.FadeRead
import Verif.Lib.Spare
import Verif.Props.TenureCmds
import Verif.Props.Tenure
import Verif.Props.TenureLock
import Verif.Props.EndToEndTime
import Verif.Props.EndToEndOrder
import Verif.Props.EndToEndMore
import Verif.Props.EndToEndShared
import Verif.Props.EndToEndRest
import Verif.Lib.Renew
import Verif.Props.Renew
import Verif.Props.RenewLasts
import Verif.Props.Session
import Verif.Props.Window
import Verif.Props.EndToEndMoves
import Verif.Props.EndToEndFifo
import Verif.Props.EndToEndMember
import Verif.Props.EndToEndEmpty
