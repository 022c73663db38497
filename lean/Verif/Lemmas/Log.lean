import Verif.Model.HwIdentifier
/-!
# Uses of the log
-/
namespace Licensecc

theorem logged_ok {α : Type} {m : Machine} {x : Outcome α} {v : α} : m.logged x = .ok v ↔ m.logOverruns = false ∧ x = .ok v := by
  unfold Machine.logged; cases m.logOverruns <;> simp

theorem logged_throw {α : Type} {m : Machine} {x : Outcome α} {e : Exn} :
    m.logged x = .throw e ↔ m.logOverruns = false ∧ x = .throw e := by
  unfold Machine.logged; cases m.logOverruns <;> simp

theorem logged_ub {α : Type} {m : Machine} {x : Outcome α} : m.logged x = .ub ↔ m.logOverruns = true ∨ x = .ub := by
  unfold Machine.logged; cases m.logOverruns <;> simp

theorem warnUnknown_cases (m : Machine) (n : Int) : m.warnUnknown n = .ok ()
    ∨ m.warnUnknown n = .ub ∧ m.logOverruns = true ∧ strategyUnknown m.strategyVar n = true := by
  unfold Machine.warnUnknown Machine.logged
  cases strategyUnknown m.strategyVar n <;> cases m.logOverruns <;> simp

theorem logged_eq {α : Type} {m : Machine} (h : m.logOverruns = false) (x : Outcome α) : m.logged x = x := by
  unfold Machine.logged; rw [h]; rfl

end Licensecc
