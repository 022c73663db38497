import Verif.Model.Network
import Verif.Model.Disks
import Verif.Model.ExecEnv
/-!
# The machine of the identification strategies, from what the operating system shows
-/
namespace Licensecc

/-- Network, disks, execution environment and the environment variable IDENTIFICATION_STRATEGY. -/
structure Os where
  net : NetHost
  disks : DiskHost
  host : Host
  strategyVar : Option Bytes
  /-- does logging overrun (`Logger.overruns`)? -/
  logOverruns : Bool := false

/-- The functions the strategies call: `getAdapterInfos` (src/library/hw_identifier/ethernet.cpp:26), `getDiskInfos`
    (src/library/hw_identifier/disk_strategy.cpp:32), `ExecutionEnvironment` (src/library/hw_identifier/default_strategy.cpp:17)
    and `getenv` (src/library/hw_identifier/hw_identifier_facade.cpp:41).  A failing `getifaddrs` is logged
    (src/library/os/linux/network.cpp:54-57). -/
def Os.machine (o : Os) : Machine where
  adapters := if o.net.ifaddrs = none ∧ o.logOverruns then .ub else .ok (getAdapterInfos o.net)
  disks := getDiskInfos o.disks
  exec := execSummary o.host
  strategyVar := o.strategyVar
  logOverruns := o.logOverruns

end Licensecc
