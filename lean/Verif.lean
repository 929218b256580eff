import Verif.Model.Api
import Verif.Props.Rx
import Verif.Props.Rx2
import Verif.Props.Rx3
import Verif.Props.Tx
import Verif.Props.Bridge
import Verif.Props.Mem
import Verif.Props.Crc
import Verif.Props.Serial
import Verif.Props.Astlpc
import Verif.Props.Astlpc2
import Verif.Props.Astlpc3
import Verif.Props.Astlpc4
import Verif.Proofs.AstWritten
import Verif.Props.Astlpc5
import Verif.Props.Astlpc6
import Verif.Props.Util
import Verif.Props.Daemon
import Verif.Props.LinkDemo
import Verif.Props.LinkClose
import Verif.Props.LinkCapture
import Verif.Props.LinkMsg
import Verif.Props.TxQueue
import Verif.Props.Reentrant
import Verif.Props.ReenterMulti
import Verif.Props.ReenterHist
import Verif.Props.Witness
import Verif.Props.TxReenter
import Verif.Props.FileIo
import Verif.Props.Detached
import Verif.Props.Retry
import Verif.Props.FileAccess
import Verif.Props.LinkLive
import Verif.Props.LinkAll
import Verif.Props.LinkUp
import Verif.Props.Tools
import Verif.Props.DaemonMain
import Verif.Props.DaemonTrace
import Verif.Props.DaemonCapture
import Verif.Props.DaemonLink
import Verif.Props.DaemonWire
import Verif.Props.DaemonProcess
import Verif.Props.DaemonPath
import Verif.Props.DaemonLive
import Verif.Props.DaemonRound
import Verif.Props.CommandLine
import Verif.Props.DaemonPair
import Verif.Props.AstQuiet
import Verif.Props.AstOwnership
