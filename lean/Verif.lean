import Verif.Basic
import Verif.Model.StringUtils
import Verif.Model.Base64
import Verif.Model.HwIdentifier
import Verif.Model.SortedMap
import Verif.Model.EventRegistry
import Verif.Model.Ini
import Verif.Spec.Base64
import Verif.Spec.Regex
import Verif.Spec.Hardware
import Verif.Spec.EventRegistry
import Verif.Spec.Ini
import Verif.Props.Base64
import Verif.Props.StringUtils
import Verif.Props.HwIdentifier
import Verif.Props.EventRegistry
import Verif.Props.EventRegistryOrder
import Verif.Props.Ini
import Verif.Model.World
import Verif.Model.FileUtils
import Verif.Model.Locators
import Verif.Model.Reader
import Verif.Model.Verifier
import Verif.Model.Acquire
import Verif.Spec.Acquire
import Verif.Lemmas.Log
import Verif.Lemmas.Reader
import Verif.Lemmas.Verifier
import Verif.Lemmas.Events
import Verif.Lemmas.Acquire
import Verif.Props.Acquire
import Verif.Spec.Reasons
import Verif.Lemmas.Reasons
import Verif.Props.Report
import Verif.Props.Stages
import Verif.Spec.Located
import Verif.Lemmas.Located
import Verif.Props.Info
import Verif.Props.Signing
import Verif.Spec.Trouble
import Verif.Props.Locate
import Verif.Props.Exceptions
import Verif.Spec.Identify
import Verif.Props.Identify
import Verif.Spec.Version
import Verif.Lemmas.Version
import Verif.Model.ExecEnv
import Verif.Spec.ExecEnv
import Verif.Props.ExecEnv
import Verif.Spec.Calendar
import Verif.Spec.DateText
import Verif.Props.Dates
import Verif.Model.Disks
import Verif.Spec.Disks
import Verif.Props.Disks
import Verif.Props.Blkid
import Verif.Model.Network
import Verif.Spec.Network
import Verif.Props.Network
import Verif.Model.Os
import Verif.Spec.Os
import Verif.Props.Os
import Verif.Spec.DateNotation
import Verif.Spec.Issued
import Verif.Props.Issued
import Verif.Model.Logger
import Verif.Props.Logger
import Verif.Model.OpenSsl
import Verif.Props.OpenSsl
import Verif.Model.WinSignature
import Verif.Spec.Der
import Verif.Props.WinSignature
import Verif.Model.WinNetwork
import Verif.Spec.WinNetwork
import Verif.Props.WinNetwork
import Verif.Model.Smbios
import Verif.Spec.Smbios
import Verif.Props.Smbios
import Verif.Model.WinOs
import Verif.Spec.WinOs
import Verif.Props.WinOs
import Verif.Model.Inspector
import Verif.Spec.Inspector
import Verif.Props.Inspector
import Verif.Model.Linux
import Verif.Spec.Linux
import Verif.Props.Linux
import Verif.Model.Windows
import Verif.Spec.Windows
import Verif.Props.Windows
import Verif.Model.IniMem
import Verif.Props.IniMem
import Verif.Model.IniParse
import Verif.Lemmas.IniParse
import Verif.Props.IniParse
import Verif.Model.CpuInfo
import Verif.Spec.CpuInfo
import Verif.Props.CpuInfo
import Verif.Model.InspectorMain
import Verif.Spec.InspectorMain
import Verif.Props.InspectorMain
import Verif.Model.Threads
import Verif.Spec.Threads
import Verif.Lemmas.Threads
import Verif.Props.ThreadsCells
import Verif.Props.ThreadsUses
import Verif.Props.Threads
import Verif.Model.Output
import Verif.Spec.Output
import Verif.Props.Output
import Verif.Model.Resources
import Verif.Spec.Resources
import Verif.Lemmas.Resources
import Verif.Props.Resources
import Verif.Model.ConvertUtf
import Verif.Spec.ConvertUtf
import Verif.Lemmas.ConvertUtf
import Verif.Props.ConvertUtf
import Verif.Model.IniStore
import Verif.Spec.IniStore
import Verif.Lemmas.IniStore
import Verif.Lemmas.IniDoc
import Verif.Lemmas.IniSave
import Verif.Lemmas.IniRoundTrip
import Verif.Lemmas.IniLoaded
import Verif.Props.IniStore
import Verif.Props.IniSave
import Verif.Model.IniNumber
import Verif.Spec.IniNumber
import Verif.Props.IniNumber
import Verif.Model.IniHeap
import Verif.Spec.IniHeap
import Verif.Lemmas.IniHeap
import Verif.Lemmas.IniHeapSet
import Verif.Lemmas.IniHeapObj
import Verif.Lemmas.IniHeapAdd
import Verif.Lemmas.IniHeapDelete
import Verif.Lemmas.IniHeapLoad
import Verif.Lemmas.IniHeapReplace
import Verif.Lemmas.IniHeapTight
import Verif.Props.IniHeap
import Verif.Model.IniFile
import Verif.Spec.IniFile
import Verif.Lemmas.IniTorn
import Verif.Props.IniFile
import Verif.Model.IniWide
import Verif.Props.IniWide
import Verif.Model.AuditArrays
import Verif.Props.AuditArrays
import Verif.Model.Double
import Verif.Props.Double
import Verif.Spec.Carry
import Verif.Props.Carry
import Verif.Model.Changing
import Verif.Spec.Changing
import Verif.Props.Changing
import Verif.Model.LogText
import Verif.Spec.LogText
import Verif.Props.LogText
import Verif.Model.InspectorWin
import Verif.Props.InspectorWin
import Verif.Model.Scarce
import Verif.Spec.Scarce
import Verif.Props.Scarce
import Verif.Spec.Order
import Verif.Lemmas.Order
import Verif.Spec.Forgery
import Verif.Props.Forgery
import Verif.Props.SameVerdict
import Verif.Props.RepoTests
import Verif.Props.NoMemory
import Verif.Model.WinThreads
import Verif.Spec.WinThreads
import Verif.Props.WinThreadsCells
import Verif.Props.WinThreads
import Verif.Model.LogTextWin
import Verif.Spec.LogTextWin
import Verif.Props.LogTextWin
import Verif.Model.ScarceWin
import Verif.Spec.ScarceWin
import Verif.Props.ScarceWin
import Verif.Model.LogDebug
import Verif.Model.LogDebugWin
import Verif.Spec.LogDebug
import Verif.Props.LogDebug
import Verif.Props.LogDebugWin
import Verif.Model.LogDebugLinux
import Verif.Props.LogDebugLinux
import Verif.Props.InfoRunning
import Verif.Props.IniDoubleBack
import Verif.Props.LoggerWin
import Verif.Props.LogDebugReport
import Verif.Props.IniStream
import Verif.Props.IniScarce
