import Verif.Props.Sweep
import Verif.Props.Stepper
import Verif.Props.Updates
import Verif.Props.RunTask
import Verif.Props.Runner
import Verif.Props.Analysis
import Verif.Props.Testbench
import Verif.Props.Replay
import Verif.Props.LogMerge
import Verif.Props.FastWorst
import Verif.Props.LogData
import Verif.Props.LogRead
import Verif.Props.SplitLine
import Verif.Props.RawClasses
import Verif.Props.RawRead
import Verif.Props.RawWrite
import Verif.Props.Netlist
import Verif.Props.Hier
import Verif.Props.Lines
import Verif.Props.NetTree
import Verif.Props.CompOps
import Verif.Props.Params
import Verif.Props.Qsch
import Verif.Props.Asc
import Verif.Props.AscInstr
import Verif.Props.Client
import Verif.Props.Geom
import Verif.Props.Search
import Verif.Props.Server
import Verif.Props.FloatFormat
import Verif.Props.FloatUnit
import Verif.Props.SubInstr
import Verif.Props.ParamLine
import Verif.Props.Race
import Verif.Props.SpiceParam
import Verif.Props.CompLine
import Verif.Props.CompShort
import Verif.Props.NetSave
import Verif.Props.Export
import Verif.Props.SchComp
import Verif.Props.QComp
import Verif.Props.QInstr
import Verif.Props.IncParam
import Verif.Props.QNets
import Verif.Props.QPin
import Verif.Props.QNetlist
import Verif.Props.MonteCarlo
import Verif.Props.RawSteps
import Verif.Props.CmdLine
import Verif.Props.RawAscii
import Verif.Props.OpLog
import Verif.Props.LogFile
import Verif.Props.QspiceLog
import Verif.Props.Asy
import Verif.Props.Convert
import Verif.Props.ConvertPin
import Verif.Props.SubFind
import Verif.Props.RawMerge
import Verif.Props.Callback
import Verif.Props.Cleanup
import Verif.Props.Wait
import Verif.Props.Alias
import Verif.Props.Control
import Verif.Props.Rename
import Verif.Props.FourierFile
import Verif.Props.LibPath
import Verif.Props.SimExe
import Verif.Props.Results
import Verif.Props.UnitObj
import Verif.Props.StepCsv
import Verif.Props.Nodes
import Verif.Props.RunFile
import Verif.Props.AscSub
import Verif.Props.RawConvert
import Verif.Props.Values
import Verif.Props.RunInfo
import Verif.Props.Launch
import Verif.Props.ServerFiles
import Verif.Props.NewComp
import Verif.Props.EditSave
import Verif.Props.SweepFiles
import Verif.Props.Session
import Verif.Props.AscSession
import Verif.Props.QSession
import Verif.Props.AscParts
import Verif.Props.QParts
import Verif.Props.RunSnap
import Verif.Props.FastFiles
import Verif.Props.QLine
import Verif.Props.QPartsLine
