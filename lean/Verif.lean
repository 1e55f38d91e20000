import Verif.Model.PyDict
import Verif.Proofs.PyDict
import Verif.Model.States
import Verif.Proofs.States
import Verif.Props.States
import Verif.Proofs.Stateful
import Verif.Props.Stateful
import Verif.Props.Steps
import Verif.Props.Validate
import Verif.Props.Hooks
import Verif.Props.Notifier
import Verif.Props.Metas
import Verif.Props.Controller
import Verif.Props.Context
import Verif.Props.Fields
import Verif.Props.Process
import Verif.Props.Exposure
import Verif.Props.Detector
import Verif.Props.ScanRunner
import Verif.Props.Yaml
import Verif.Props.Odin
import Verif.Props.Version
import Verif.Props.Trajectory
import Verif.Props.TrajLoop
import Verif.Props.TrajSend
import Verif.Props.TrajOverlap
import Verif.Props.Sparse
import Verif.Props.PmacUtil
import Verif.Props.DoubleBuffer
import Verif.Props.Seq
import Verif.Props.PandATable
import Verif.Props.PandAClient
import Verif.Props.PandAPoll
import Verif.Props.PandABusses
import Verif.Props.PandABussesSet
import Verif.Props.PandABits
import Verif.Model.WebServer
import Verif.Spec.WebServer
import Verif.Props.WebServer
import Verif.Props.WebClients
import Verif.Props.SeqFit
import Verif.Model.Proxy
import Verif.Spec.Proxy
import Verif.Props.Proxy
import Verif.Props.ProxyRemote
import Verif.Model.Tags
import Verif.Model.Runnable
import Verif.Props.Tags
import Verif.Props.Runnable
import Verif.Props.RunnableEnds
import Verif.Props.RunnableLive
import Verif.Props.RunnableWitness
import Verif.Proofs.Runnable
import Verif.Spec.Runnable
import Verif.Props.Layout
import Verif.Props.Exports
import Verif.Props.Modified
import Verif.Props.Design
import Verif.Props.WebClient
import Verif.Props.Hdf
import Verif.Props.Ca
import Verif.Props.Params
import Verif.Props.DetStep
import Verif.Props.Pva
import Verif.Model.PvaClient
import Verif.Spec.PvaClient
import Verif.Proofs.PvaClient
import Verif.Proofs.PvaStore
import Verif.Proofs.PvaSync
import Verif.Proofs.PvaTake
import Verif.Proofs.PvaNet
import Verif.Props.PvaClient
import Verif.Props.PandABlock
import Verif.Props.PandALife
import Verif.Model.RunUp
import Verif.Spec.RunUp
import Verif.Props.RunUp
import Verif.Model.Datasets
import Verif.Spec.Datasets
import Verif.Props.Datasets
import Verif.Model.LutIcon
import Verif.Spec.LutIcon
import Verif.Props.LutIcon
import Verif.Model.MotorPorts
import Verif.Spec.MotorPorts
import Verif.Props.MotorPorts
import Verif.Props.RunnableStops
import Verif.Model.CsMove
import Verif.Spec.CsMove
import Verif.Props.CsMove
import Verif.Model.BeamSelector
import Verif.Spec.BeamSelector
import Verif.Props.BeamSelector
import Verif.Model.FileWrite
import Verif.Model.Motion
import Verif.Model.DetArm
import Verif.Model.FrameTime
import Verif.Spec.FileWrite
import Verif.Spec.Motion
import Verif.Spec.DetArm
import Verif.Props.FileWrite
import Verif.Props.Motion
import Verif.Props.DetArm
import Verif.Props.FrameTime
import Verif.Model.IocStatus
import Verif.Spec.IocStatus
import Verif.Props.IocStatus
import Verif.Model.Shutter
import Verif.Props.Shutter
import Verif.Model.When
import Verif.Spec.When
import Verif.Proofs.When
import Verif.Props.When
import Verif.Model.View
import Verif.Spec.View
import Verif.Props.View
import Verif.Model.Spawned
import Verif.Spec.Spawned
import Verif.Props.Spawned
import Verif.Model.ValParts
import Verif.Spec.ValParts
import Verif.Props.ValParts
import Verif.Model.Xspress
import Verif.Spec.Xspress
import Verif.Props.Xspress
import Verif.Model.Kinematics
import Verif.Spec.Kinematics
import Verif.Props.Kinematics
import Verif.Model.Rest
import Verif.Spec.Rest
import Verif.Props.Rest
import Verif.Model.TrigWiring
import Verif.Spec.TrigWiring
import Verif.Props.TrigWiring
import Verif.Model.PandATalk
import Verif.Spec.PandATalk
import Verif.Props.PandATalk
import Verif.Model.ExportMirror
import Verif.Spec.ExportMirror
import Verif.Props.ExportMirror
import Verif.Model.ChildWatch
import Verif.Spec.ChildWatch
import Verif.Props.ChildWatch
import Verif.Model.WriterStall
import Verif.Spec.WriterStall
import Verif.Props.WriterStall
import Verif.Model.TakePart
import Verif.Spec.TakePart
import Verif.Props.TakePart
import Verif.Model.OdinFile
import Verif.Spec.OdinFile
import Verif.Props.OdinFile
import Verif.Model.Compose
import Verif.Spec.Compose
import Verif.Props.Compose
import Verif.Model.DataTable
import Verif.Spec.DataTable
import Verif.Props.DataTable
import Verif.Model.SysBlock
import Verif.Spec.SysBlock
import Verif.Props.SysBlock
import Verif.Model.PvaCall
import Verif.Spec.PvaCall
import Verif.Props.PvaCall
import Verif.Model.Launch
import Verif.Spec.Launch
import Verif.Props.Launch
import Verif.Model.WebFlow
import Verif.Spec.WebFlow
import Verif.Props.WebFlow
import Verif.Model.Overlap
import Verif.Spec.Overlap
import Verif.Props.Overlap
import Verif.Spec.RunWait
import Verif.Props.RunWait
import Verif.Model.WebChain
import Verif.Spec.WebChain
import Verif.Props.WebChain
import Verif.Model.DesignFiles
import Verif.Spec.DesignFiles
import Verif.Props.DesignFiles
import Verif.Model.WaitTime
import Verif.Spec.WaitTime
import Verif.Props.WaitTime
import Verif.Model.Deliver
import Verif.Spec.Deliver
import Verif.Props.Deliver
import Verif.Model.Stopping
import Verif.Spec.Stopping
import Verif.Proofs.Stopping
import Verif.Props.Stopping
import Verif.Model.Startup
import Verif.Spec.Startup
import Verif.Proofs.Startup
import Verif.Props.Startup
import Verif.Model.Family
import Verif.Spec.Family
import Verif.Proofs.Family
import Verif.Props.Family
import Verif.Model.Halt
import Verif.Spec.Halt
import Verif.Proofs.Halt
import Verif.Props.Halt
import Verif.Model.CallLog
import Verif.Spec.CallLog
import Verif.Proofs.CallLog
import Verif.Props.CallLog
import Verif.Model.PandALayout
import Verif.Spec.PandALayout
import Verif.Proofs.PandALayout
import Verif.Props.PandALayout
import Verif.Model.PvaExports
import Verif.Spec.PvaExports
import Verif.Proofs.PvaExports
import Verif.Props.PvaExports
import Verif.Model.PvaLife
import Verif.Spec.PvaLife
import Verif.Props.PvaLife
import Verif.Model.Prepare
import Verif.Spec.Prepare
import Verif.Props.Prepare
import Verif.Model.ShutterChild
import Verif.Spec.ShutterChild
import Verif.Props.ShutterChild
import Verif.Model.FieldNames
import Verif.Spec.FieldNames
import Verif.Props.FieldNames
