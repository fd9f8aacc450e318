import Verif.Props.Queue
import Verif.Props.Pool
import Verif.Props.Mailbox
import Verif.Props.SpellChkr
import Verif.Props.ScopeStack
import Verif.Props.Packer
import Verif.Props.SvBits
import Verif.Props.RegField
import Verif.Props.Reg
import Verif.Props.RegMap
import Verif.Props.Factory
import Verif.Props.Resource
import Verif.Props.Objection
import Verif.Props.Arbiter
import Verif.Props.Response
import Verif.Props.Sequencer
import Verif.Props.Report
import Verif.Props.Callback
import Verif.Props.TlmFifo
import Verif.Props.Comparator
import Verif.Props.Port
import Verif.Props.Dap
import Verif.Props.Event
import Verif.Props.Text
import Verif.Props.Cmdline
import Verif.Props.Comparer
import Verif.Props.Object
import Verif.Props.Fields
import Verif.Props.Component
import Verif.Props.Traverse
import Verif.Props.Phase
import Verif.Props.RegFifo
import Verif.Props.RegBlock
import Verif.Props.Mam
import Verif.Props.RegAtomic
import Verif.Props.RegAccess
import Verif.Props.RegAccessCbs
import Verif.Props.RegTests
import Verif.Props.RegPredictor
import Verif.Props.Mem
import Verif.Props.Hdl
import Verif.Props.SeqStart
import Verif.Props.SeqItem
import Verif.Props.PhaseRun
import Verif.Props.ReqRsp
import Verif.Props.MapSel
import Verif.Props.MemTests
import Verif.Props.Recording
import Verif.Props.ObjPack
import Verif.Props.Printer
import Verif.Props.Semaphore
import Verif.Props.RandStab
import Verif.Props.ConfigAuto
import Verif.Props.RegIndirect
import Verif.Props.SvText
import Verif.Props.RootSettings
import Verif.Props.TlmTime
import Verif.Props.RegAccessTest
import Verif.Props.SeqMacros
import Verif.Props.WaitMod
import Verif.Props.PhaseSeq
import Verif.Props.Coverage
import Verif.Props.Domain
import Verif.Props.RegXlate
import Verif.Props.VReg
import Verif.Props.ReportText
import Verif.Props.PortRel
import Verif.Props.PhaseLook
import Verif.Props.RunTest
import Verif.Props.MapTree
import Verif.Props.MapInit
import Verif.Props.Policy
import Verif.Props.SetLocal
import Verif.Props.CompDomain
import Verif.Props.PhaseNames
import Verif.Props.UserDoor
import Verif.Props.TlmIf
import Verif.Props.Socket
import Verif.Props.Container
import Verif.Props.RegQuery
import Verif.Props.ObjTrace
import Verif.Props.FactoryInfo
import Verif.Props.EventRec
import Verif.Props.CatcherDbg
import Verif.Props.PackSize

import Verif.Props.PoolIter
import Verif.Props.AgentCfg
import Verif.Props.Service
import Verif.Props.CmpHist
import Verif.Props.RegFile
import Verif.Props.Payload
import Verif.Props.RegSystem
import Verif.Props.RegConc
import Verif.Props.RsrcPrio
import Verif.Props.RegText
import Verif.Props.RegChip
import Verif.Props.MapSwitch
import Verif.Props.RegUpset
import Verif.Props.RegWatch
import Verif.Props.OvrRel
import Verif.Props.RegMem
import Verif.Props.RegPar
import Verif.Model.RegParSet
import Verif.Spec.RegParSet
import Verif.Props.RegParSet
import Verif.Props.RegAdapter
import Verif.Model.RegTestsAll
import Verif.Lemmas.RegChipDev
import Verif.Props.RegTestsAll
import Verif.Model.PhaseObj
import Verif.Spec.PhaseObj
import Verif.Props.PhaseObj
import Verif.Model.SeqPhase
import Verif.Spec.SeqPhase
import Verif.Props.SeqPhase
import Verif.Props.PhaseCalls
import Verif.Props.Scoreboard
import Verif.Props.PlusArgs
import Verif.Model.BuildCfg
import Verif.Spec.BuildCfg
import Verif.Props.BuildCfg
import Verif.Model.CmdCfg
import Verif.Props.CmdCfg
import Verif.Model.BuildFactory
import Verif.Spec.BuildFactory
import Verif.Props.BuildFactory
import Verif.Props.BuildAuto
import Verif.Model.SeqRun
import Verif.Spec.SeqRun
import Verif.Props.SeqRun
import Verif.Model.PortText
import Verif.Spec.PortText
import Verif.Props.PortText
import Verif.Model.RegName
import Verif.Spec.RegName
import Verif.Props.RegName
import Verif.Model.BuiltIn
import Verif.Spec.BuiltIn
import Verif.Props.BuiltIn
import Verif.Model.Barrier
import Verif.Spec.Barrier
import Verif.Props.Barrier
import Verif.Model.CbRun
import Verif.Spec.CbRun
import Verif.Props.CbRun
import Verif.Model.MsgMacros
import Verif.Spec.MsgMacros
import Verif.Props.MsgMacros
import Verif.Model.ImpDecl
import Verif.Spec.ImpDecl
import Verif.Props.ImpDecl
import Verif.Model.SqrIds
import Verif.Spec.SqrIds
import Verif.Props.SqrIds
import Verif.Model.RspRoute
import Verif.Spec.RspRoute
import Verif.Props.RspRoute
import Verif.Model.RspSystem
import Verif.Spec.RspSystem
import Verif.Props.RspSystem
