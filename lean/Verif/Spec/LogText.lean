import Verif.Model.LogText
import Verif.Spec.Output
import Verif.Spec.Identify
/-!
# Specification: what the library writes in its log
-/
namespace Licensecc.Spec
open LogText

/-- A whole number in decimal notation, without leading zeros. -/
def IntText (n : Int) (t : Bytes) : Prop :=
  (0 ≤ n ∧ Numeral 10 n.toNat t ∧ (n ≠ 0 → t.head? ≠ some 48))
  ∨ (n < 0 ∧ ∃ u, t = 45 :: u ∧ Numeral 10 (-n).toNat u ∧ u.head? ≠ some 48)

/-- The text up to its NUL. -/
def upToNul (s : Bytes) : Bytes := s.takeWhile (· ≠ 0)

/-- The level of an entry, the source file and line it names, and its message. -/
inductive Described : LogText.Entry → Bytes → Bytes → Int → Bytes → Prop
  | identifying (w : Bytes) : Described (.identifying w) (b!"ERROR") (b!"licensecc.cpp") 41
      (b!"Error calculating hw_identifier: " ++ upToNul w)
  | validating (c w : Bytes) : Described (.validating c w) (b!"ERROR") (b!"hw_identifier/hw_identifier_facade.cpp") 31
      (b!"Error validating identifier " ++ upToNul c ++ b!": " ++ upToNul w)
  | unknownStrategy (v : Bytes) : Described (.unknownStrategy v) (b!"WARN") (b!"hw_identifier/hw_identifier_facade.cpp") 45
      (b!"unknown IDENTIFICATION_STRATEGY " ++ upToNul v)
  | moduleName : Described .moduleName (b!"WARN") (b!"locate/ApplicationFolder.cpp") 46 (b!"Error determining module name.")
  | getifaddrs : Described .getifaddrs (b!"WARN") (b!"os/linux/network.cpp") 55 (b!"getifaddrs failed == -1")
  | publicKey : Described .publicKey (b!"ERROR") (b!"os/openssl/signature_verifier.cpp") 54 (b!"Error reading public key")
  | context : Described .context (b!"ERROR") (b!"os/openssl/signature_verifier.cpp") 82 (b!"Error creating context")
  | digestInit : Described .digestInit (b!"ERROR") (b!"os/openssl/signature_verifier.cpp") 86 (b!"Error initializing digest")
  | digestUpdate {n : Int} {t : Bytes} : IntText n t →
      Described (.digestUpdate n) (b!"ERROR") (b!"os/openssl/signature_verifier.cpp") 93 (b!"Error verifying digest " ++ t)
  | digestFinal {n : Int} {t : Bytes} : IntText n t →
      Described (.digestFinal n) (b!"ERROR") (b!"os/openssl/signature_verifier.cpp") 100 (b!"Error verifying digest " ++ t)

/-- The text of an entry in the file: time, level, place, `errno`, message, line end. -/
inductive LogLine (dir : Bytes) (x : Stamp) (e : LogText.Entry) : Bytes → Prop
  | mk {level file num msg : Bytes} {line : Int} : Described e level file line msg → IntText line num →
      LogLine dir x e (x.now ++ b!"[" ++ level ++ b!"] (" ++ upToNul (dir ++ file) ++ b!":" ++ num ++ b!": errno: " ++ upToNul x.errno
        ++ b!") " ++ msg ++ b!"\n")

/-- The texts of entries, one after the other. -/
inductive LogLines (dir : Bytes) : List (Stamp × LogText.Entry) → Bytes → Prop
  | nil : LogLines dir [] []
  | cons {x : Stamp} {e : LogText.Entry} {es : List (Stamp × LogText.Entry)} {t u : Bytes} : LogLine dir x e t → LogLines dir es u →
      LogLines dir ((x, e) :: es) (t ++ u)

/-- What is logged about a hardware identifier that is looked at: an error with its text if it does not stand for 8 bytes, names a
    strategy that does not exist or an exception is thrown while adapters or disks are listed; and what listing the adapters logs. -/
inductive IdentifierLogged (h : Hooks) (s : Bytes) : List LogText.Entry → Prop
  | equals : identifierText s = b!"==" → IdentifierLogged h s [.validating s (h.lib .lengthError)]
  | size : identifierText s ≠ b!"==" → decodedSize (identifierText s) ≠ 8 →
      IdentifierLogged h s [.validating s (b!"wrong identifier size " ++ s)]
  | unsupported {id : HwId} : HwId.ofString s = .ok id → 3 ≤ id.d1.toNat / 32 →
      IdentifierLogged h s [.validating s (b!"strategy not supported")]
  | network {id : HwId} {x : FuncRet × List Adapter} : HwId.ofString s = .ok id → id.d1.toNat / 32 ≤ 1 →
      h.adapters.result = .ok x → IdentifierLogged h s h.adapters.entries
  | networkThrows {id : HwId} {e : Exn} : HwId.ofString s = .ok id → id.d1.toNat / 32 ≤ 1 → h.adapters.result = .throw e →
      IdentifierLogged h s (h.adapters.entries ++ [.validating s h.adapters.what])
  | disks {id : HwId} {x : FuncRet × List Disk} : HwId.ofString s = .ok id → id.d1.toNat / 32 = 2 →
      h.world.machine.disks = .ok x → IdentifierLogged h s []
  | disksThrow {id : HwId} {e : Exn} : HwId.ofString s = .ok id → id.d1.toNat / 32 = 2 → h.world.machine.disks = .throw e →
      IdentifierLogged h s [.validating s (h.lib e)]

/-- What is logged because of one text. -/
inductive TextLogged (cfg : Config) (h : Hooks) (magic : Nat) (feature text : Bytes) (now : Int) : List LogText.Entry → Prop
  /-- no complete section for the feature: nothing -/
  | none : ¬ Complete feature text → TextLogged cfg h magic feature text now []
  /-- the identifier is not looked at: what the check of the signature logs -/
  | signature {sig data : Bytes} : Complete feature text → lastValue (b!"sig") (entriesFor feature text) = some sig →
      SigningData feature (entriesFor feature text) data → (¬ ∃ s, LooksAt cfg h.world magic feature text now s) →
      TextLogged cfg h magic feature text now (h.verify data sig).entries
  /-- the identifier is looked at -/
  | identifier {sig data s : Bytes} {l : List LogText.Entry} : lastValue (b!"sig") (entriesFor feature text) = some sig →
      SigningData feature (entriesFor feature text) data → LooksAt cfg h.world magic feature text now s → IdentifierLogged h s l →
      TextLogged cfg h magic feature text now ((h.verify data sig).entries ++ l)

/-- What is logged because of texts one after the other; the times are among the first `K` readings of the clock and the one after. -/
inductive TextsLogged (cfg : Config) (h : Hooks) (magic : Nat) (feature : Bytes) (K : Nat) :
    List (Bytes × Bytes) → List LogText.Entry → Prop
  | nil : TextsLogged cfg h magic feature K [] []
  | cons {src text : Bytes} {ps : List (Bytes × Bytes)} {k : Nat} {l l' : List LogText.Entry} : k ≤ K →
      TextLogged cfg h magic feature text (h.world.clock k) l → TextsLogged cfg h magic feature K ps l' →
      TextsLogged cfg h magic feature K ((src, text) :: ps) (l ++ l')

/-- The functions of the platform compute what the rest of the model says they do. -/
structure Faithful (h : Hooks) : Prop where
  verify : ∀ d s, (h.verify d s).result = h.world.verify d s
  adapters : h.adapters.result = h.world.machine.adapters

/-- What is logged while an identifier is looked for by strategy `n`, and the reason if there is none. -/
inductive Sought (h : Hooks) : Int → List LogText.Entry → Option Bytes → Prop
  /-- ethernet and IP address -/
  | network {n : Int} {b : Bytes} : n = 0 ∨ n = 1 → Identifies h.world.machine n b → Sought h n h.adapters.entries none
  | networkNone {n : Int} {x : FuncRet × List Adapter} {t : Bytes} : n = 0 ∨ n = 1 → h.adapters.result = .ok x →
      (∀ b, ¬ Identifies h.world.machine n b) → IntText n t →
      Sought h n h.adapters.entries (some (b!"strategy " ++ t ++ b!" failed"))
  | networkThrows {n : Int} {e : Exn} : n = 0 ∨ n = 1 → h.adapters.result = .throw e →
      Sought h n h.adapters.entries (some h.adapters.what)
  /-- disks -/
  | disk {b : Bytes} : Identifies h.world.machine 2 b → Sought h 2 [] none
  | diskNone {x : FuncRet × List Disk} : h.world.machine.disks = .ok x → (∀ b, ¬ Identifies h.world.machine 2 b) →
      Sought h 2 [] (some (b!"strategy 2 failed"))
  | diskThrows {e : Exn} : h.world.machine.disks = .throw e → Sought h 2 [] (some (h.lib e))
  /-- default on a machine without virtualisation: the disks, and after them a strategy that does not exist -/
  | bareMetal {e : ExecSummary} {b : Bytes} : h.world.machine.exec = .ok e → e.virtualization = .none →
      Identifies h.world.machine 2 b → Sought h (-1) [] none
  | bareMetalNone {e : ExecSummary} {x : FuncRet × List Disk} : h.world.machine.exec = .ok e → e.virtualization = .none →
      h.world.machine.disks = .ok x → (∀ b, ¬ Identifies h.world.machine 2 b) → Sought h (-1) [] (some (b!"strategy not supported"))
  | bareMetalThrows {e : ExecSummary} {ex : Exn} : h.world.machine.exec = .ok e → e.virtualization = .none →
      h.world.machine.disks = .throw ex → Sought h (-1) [] (some (h.lib ex))
  /-- default in a container other than Docker, or a virtual machine that is not in a cloud: the adapters, and after them a strategy that
      does not exist -/
  | virtual {e : ExecSummary} {b : Bytes} : h.world.machine.exec = .ok e →
      (e.virtualization = .container ∧ e.isDocker = false ∨ e.virtualization = .vm ∧ e.isCloud = false) →
      Identifies h.world.machine 0 b → Sought h (-1) h.adapters.entries none
  | virtualNone {e : ExecSummary} {x : FuncRet × List Adapter} : h.world.machine.exec = .ok e →
      (e.virtualization = .container ∧ e.isDocker = false ∨ e.virtualization = .vm ∧ e.isCloud = false) →
      h.adapters.result = .ok x → (∀ b, ¬ Identifies h.world.machine 0 b) →
      Sought h (-1) h.adapters.entries (some (b!"strategy not supported"))
  | virtualThrows {e : ExecSummary} {ex : Exn} : h.world.machine.exec = .ok e →
      (e.virtualization = .container ∧ e.isDocker = false ∨ e.virtualization = .vm ∧ e.isCloud = false) →
      h.adapters.result = .throw ex → Sought h (-1) h.adapters.entries (some h.adapters.what)
  /-- default in Docker or in a cloud: no strategy at all -/
  | dockerOrCloud {e : ExecSummary} : h.world.machine.exec = .ok e →
      (e.virtualization = .container ∧ e.isDocker = true ∨ e.virtualization = .vm ∧ e.isCloud = true) →
      Sought h (-1) [] (some (b!"strategy not supported"))
  | unknownEnvironment {e : Exn} : h.world.machine.exec = .throw e → Sought h (-1) [] (some (h.lib e))
  /-- any other number -/
  | other {n : Int} : n < -1 ∨ 2 < n → Sought h n [] (some (b!"strategy not supported"))

/-- A value of the environment variable that counts and names no strategy is logged. -/
inductive VariableLogged (var : Option Bytes) (strategy : Int) : List LogText.Entry → Prop
  | unknown {v : Bytes} : VariableUnknown var strategy → var = some v → VariableLogged var strategy [.unknownStrategy v]
  | otherwise : ¬ VariableUnknown var strategy → VariableLogged var strategy []

/-- What is logged by a call of `identify_pc` with enough memory for an identifier, and whether there is one. -/
inductive IdentifyLogged (h : Hooks) (strategy : Int) : List LogText.Entry → Bool → Prop
  | found {n : Int} {used : Bool} {l0 l : List LogText.Entry} : StrategyUsed h.world.machine.strategyVar strategy n used →
      VariableLogged h.world.machine.strategyVar strategy l0 → Sought h n l none → IdentifyLogged h strategy (l0 ++ l) true
  | failed {n : Int} {used : Bool} {l0 l : List LogText.Entry} {why : Bytes} : StrategyUsed h.world.machine.strategyVar strategy n used →
      VariableLogged h.world.machine.strategyVar strategy l0 → Sought h n l (some why) →
      IdentifyLogged h strategy (l0 ++ l ++ [.identifying why]) false

/-- What the check of a signature with OpenSSL logs: the first step that fails; nothing if the signature is accepted. -/
inductive SignatureLogged (o : OpenSsl) (data sig : Bytes) : List LogText.Entry → Bool → Prop
  | key : o.keyParses = false → SignatureLogged o data sig [.publicKey] false
  | context {d : Bytes} : o.keyParses = true → o.bioRead sig = some d → o.contextCreated = false →
      SignatureLogged o data sig [.context] false
  | init {d : Bytes} : o.keyParses = true → o.bioRead sig = some d → o.contextCreated = true → o.digestInit = false →
      SignatureLogged o data sig [.digestInit] false
  | update {d : Bytes} : o.keyParses = true → o.bioRead sig = some d → o.contextCreated = true → o.digestInit = true →
      o.digestUpdate data ≠ 1 → SignatureLogged o data sig [.digestUpdate (o.digestUpdate data)] false
  | final {d : Bytes} : o.keyParses = true → o.bioRead sig = some d → o.contextCreated = true → o.digestInit = true →
      o.digestUpdate data = 1 → o.digestFinal data d ≠ 1 → SignatureLogged o data sig [.digestFinal (o.digestFinal data d)] false
  | accepted {d : Bytes} : o.keyParses = true → o.bioRead sig = some d → o.contextCreated = true → o.digestInit = true →
      o.digestUpdate data = 1 → o.digestFinal data d = 1 → SignatureLogged o data sig [] true

/-- The texts in an entry that come from outside: from a licence, the environment or the standard library. -/
def outsideTexts : LogText.Entry → List Bytes
  | .identifying w => [w]
  | .validating c w => [c, w]
  | .unknownStrategy v => [v]
  | _ => []

end Licensecc.Spec
