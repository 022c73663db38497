import Verif.Model.EventRegistry
import Verif.Model.Ini
import Verif.Model.Base64
/-!
# The surroundings of a call of the library

Everything `acquire_license` obtains from the operating system, the C library, the crypto library and the build
configuration.  Theorems quantify over all of these.
-/
namespace Licensecc

/-- What the build fixes, src/templates/licensecc_properties.h.in. -/
structure Config where
  /-- LCC_PROJECT_NAME, line 29 -/
  projectName : Bytes
  /-- FIND_LICENSE_NEAR_MODULE, line 32 (true as shipped) -/
  nearModule : Bool
  /-- FIND_LICENSE_WITH_ENV_VAR, line 33 (false as shipped) -/
  withEnvVar : Bool
  /-- LCC_PROJECT_MAGIC_NUM in LCC_VERIFY_MAGIC, line 61 -/
  magic : Nat

/-- The environment of one call. -/
structure World where
  /-- result of the k-th call of `time(nullptr)` -/
  clock : Nat → Int
  /-- `mktime` for local midnight of year, month, day -/
  mktime : Int → Int → Int → Int
  /-- `license::os::verify_signature(data, signature) == FUNC_RET_OK` -/
  verify : Bytes → Bytes → Outcome Bool
  /-- does `ifstream f(path)` open? -/
  probe : Bytes → Bool
  /-- content of the file when it is read (`none` if it cannot be opened then); independent of `probe`, so a file may
      appear, vanish or change between the two -/
  read : Bytes → Option Bytes
  /-- `getenv` -/
  getenv : Bytes → Option Bytes
  /-- `getModuleName`: `none` when it fails -/
  moduleName : Option Bytes
  /-- hardware as seen by the hardware identification code -/
  machine : Machine
  /-- contents of audit events that are never written by the library -/
  junk : Event
  /-- what the library is compiled for -/
  platform : Platform := .linux

/-- `LicenseLocation`, include/licensecc/datatypes.h:86-89.  `kind` is the enum value passed by the C caller: 0 path,
    1 plain, 2 encoded; `data` is the array. -/
structure LicenseLocation where
  kind : Int
  data : Bytes

/-- `CallerInformations`, include/licensecc/datatypes.h:94-118 (the version field is not used by the library).
    `featureName` is the array of 16 bytes. -/
structure Caller where
  featureName : Bytes
  magic : Nat

end Licensecc
