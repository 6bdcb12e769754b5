import Verif.Model.Base
import Verif.Model.AllocTable
import Verif.Model.Header
import Verif.Model.Tables
import Verif.Lemmas.Bytes
import Verif.Lemmas.Header
import Verif.Props.Header
import Verif.Props.AllocTable
import Verif.Lemmas.Readers
import Verif.Props.Tables
import Verif.Props.Directory
import Verif.Props.Tree
import Verif.Props.Item
import Verif.Props.Stream
import Verif.Props.File
import Verif.Props.FileLife
import Verif.Props.Handles
import Verif.Props.FileState
import Verif.Props.Sample
import Verif.Props.FileExamples
import Verif.Props.EndToEnd
import Verif.Props.PropSet
import Verif.Props.Mount
import Verif.Props.Export
import Verif.Props.Frame
import Verif.Spec.Encode
import Verif.Lemmas.Encode
import Verif.Lemmas.EncodeFile
import Verif.Props.RoundTrip
import Verif.Props.ExportDoc
import Verif.Model.Fuse
import Verif.Spec.Fuse
import Verif.Props.Fuse
import Verif.Props.FuseDoc
import Verif.Props.FuseSafe
import Verif.Spec.EncodeSet
import Verif.Lemmas.EncodeSet
import Verif.Props.SetWrite
import Verif.Model.PyTime
import Verif.Spec.PyTime
import Verif.Lemmas.PyTime
import Verif.Props.PyTime
import Verif.Model.Py
import Verif.Spec.Py
import Verif.Lemmas.PyInt
import Verif.Props.Py
import Verif.Model.PyFile
import Verif.Spec.PyFile
import Verif.Props.PyFile
import Verif.Model.PyLife
import Verif.Model.PyModule
import Verif.Lemmas.PyLife
import Verif.Props.PyLife
import Verif.Model.ItemName
import Verif.Spec.Text
import Verif.Lemmas.Text
import Verif.Props.Text
import Verif.Model.Info
import Verif.Spec.Info
import Verif.Lemmas.Info
import Verif.Props.Info
import Verif.Model.InfoSet
import Verif.Spec.InfoSet
import Verif.Lemmas.InfoSet
import Verif.Props.InfoSet
import Verif.Props.InfoRead
import Verif.Spec.Blocks
import Verif.Props.Blocks
import Verif.Model.Getopt
import Verif.Spec.Getopt
import Verif.Lemmas.Getopt
import Verif.Props.Getopt
import Verif.Model.Programs
import Verif.Spec.Programs
import Verif.Lemmas.Programs
import Verif.Props.Programs
import Verif.Model.MountProgram
import Verif.Spec.MountProgram
import Verif.Props.MountProgram
import Verif.Model.PyApi
import Verif.Spec.PyApi
import Verif.Props.PyApi
import Verif.Spec.PyItems
import Verif.Spec.PyModule
import Verif.Props.PyItems
import Verif.Spec.Marks
import Verif.Lemmas.Marks
import Verif.Props.Marks
import Verif.Props.PyMarks
import Verif.Props.PyModule
import Verif.Model.Memory
import Verif.Model.MemSet
import Verif.Spec.MemSet
import Verif.Lemmas.Memory
import Verif.Lemmas.MemSet
import Verif.Props.MemSet
import Verif.Model.MemFile
import Verif.Spec.MemFile
import Verif.Lemmas.MemFile
import Verif.Lemmas.MemOpen
import Verif.Lemmas.MemTree
import Verif.Lemmas.MemStage
import Verif.Lemmas.MemCore
import Verif.Lemmas.MemValue
import Verif.Lemmas.MemLife
import Verif.Props.MemFile
import Verif.Model.MemItem
import Verif.Spec.MemItem
import Verif.Lemmas.MemItem
import Verif.Lemmas.MemFit
import Verif.Lemmas.MemProgram
import Verif.Lemmas.MemSteps
import Verif.Lemmas.MemInv
import Verif.Props.MemItem
import Verif.Props.MemReply
import Verif.Lemmas.MemFollow
import Verif.Model.MemSetItem
import Verif.Spec.MemSetItem
import Verif.Lemmas.MemSetItem
import Verif.Props.MemSetItem
import Verif.Model.CompObj
import Verif.Spec.CompObj
import Verif.Lemmas.CompObj
import Verif.Props.CompObj
import Verif.Model.Stack
import Verif.Lemmas.Stack
import Verif.Props.Stack
import Verif.Model.MountWide
import Verif.Model.Dokan
import Verif.Spec.MountWide
import Verif.Spec.Dokan
import Verif.Lemmas.MountWide
import Verif.Props.MountWide
import Verif.Props.DokanDoc
import Verif.Props.Dokan
import Verif.Model.Threads
import Verif.Spec.Threads
import Verif.Lemmas.Threads
import Verif.Props.Threads
import Verif.Props.Resources
import Verif.Props.ExportCrash
import Verif.Props.ExportFaithful
import Verif.Props.ExportLog
import Verif.Props.Damage
import Verif.Props.DamageLost
import Verif.Props.DamageShort
import Verif.Props.ExportDamaged
import Verif.Props.ExportTable
import Verif.Props.InfoDamaged
import Verif.Props.FuseDamaged
import Verif.Spec.Unused
import Verif.Props.Unused
import Verif.Spec.InPlace
import Verif.Props.InPlace
import Verif.Spec.Objects
import Verif.Props.Objects
import Verif.Model.DokanThreads
import Verif.Props.DokanThreads
import Verif.Model.PyStream
import Verif.Spec.PyStream
import Verif.Props.PyStream
import Verif.Model.PyThreads
import Verif.Spec.PyThreads
import Verif.Props.PyThreads
import Verif.Model.PyError
import Verif.Spec.PyError
import Verif.Props.PyError
import Verif.Spec.DamageTable
import Verif.Props.DamageTable
