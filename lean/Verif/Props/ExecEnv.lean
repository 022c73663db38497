import Verif.Spec.ExecEnv
import Verif.Props.Identify
import Verif.Lemmas.Version
/-!
# C45, C52: the execution environment
-/
namespace Licensecc
open Spec

theorem contains_iff (needle s : Bytes) : contains needle s = true ↔ Mentions s needle := by
  have : ∀ s, contains needle s = true ↔ needle <:+: s := by
    intro s
    induction s with
    | nil => simp [contains]
    | cons c s ih => rw [contains, Bool.or_eq_true, ih, List.isPrefixOf_iff_prefix, List.infix_cons_iff]
  rw [this]
  constructor
  · rintro ⟨a, b, h⟩; exact ⟨a, b, h.symm⟩
  · rintro ⟨a, b, h⟩; exact ⟨a, b, h.symm⟩

/-! ## Containers -/

theorem procLines_none (ls : List Bytes) : procLines ls = .none ↔ ∀ x ∈ ls.map (fun l => l.takeWhile (· ≠ 0)), ¬ AboutContainer x := by
  induction ls with
  | nil => simp [procLines]
  | cons l ls ih =>
    rw [procLines, List.map_cons, List.forall_mem_cons, ← ih]
    simp only [AboutContainer, ← contains_iff]
    cases h1 : contains b!"docker" (l.takeWhile (· ≠ 0)) <;> cases h2 : contains b!"lxc" (l.takeWhile (· ≠ 0)) <;> simp

theorem procLines_some (ls : List Bytes) (c : Container) (hc : c ≠ .none) : procLines ls = c ↔
    ∃ l, FirstLine AboutContainer (ls.map (fun l => l.takeWhile (· ≠ 0))) l
      ∧ ((c = .lxc ∧ Mentions l b!"lxc") ∨ (c = .docker ∧ ¬ Mentions l b!"lxc")) := by
  induction ls with
  | nil =>
    simp only [procLines, List.map_nil]
    constructor
    · intro h; exact absurd h.symm hc
    · rintro ⟨l, ⟨b, a, h, _⟩, _⟩; simp at h
  | cons l ls ih =>
    rw [procLines, List.map_cons]
    have skip : ∀ (t : Bytes) (ts : List Bytes), ¬ AboutContainer t →
        ∀ x, FirstLine AboutContainer (t :: ts) x ↔ FirstLine AboutContainer ts x := by
      intro t ts ht x
      constructor
      · rintro ⟨b, a, h, h1, h2⟩
        cases b with
        | nil => simp at h; exact absurd (h.1 ▸ h2) ht
        | cons y b => simp at h; obtain ⟨rfl, rfl⟩ := h; exact ⟨b, a, rfl, fun z hz => h1 z (by simp [hz]), h2⟩
      · rintro ⟨b, a, rfl, h1, h2⟩
        exact ⟨t :: b, a, rfl, by simpa [ht] using h1, h2⟩
    have here : ∀ (t : Bytes) (ts : List Bytes), AboutContainer t →
        ∀ x, FirstLine AboutContainer (t :: ts) x ↔ x = t := by
      intro t ts ht x
      constructor
      · rintro ⟨b, a, h, h1, h2⟩
        cases b with
        | nil => simp at h; exact h.1.symm
        | cons y b => simp at h; exact absurd (h.1 ▸ ht) (h1 y (by simp))
      · rintro rfl; exact ⟨[], ts, rfl, by simp, ht⟩
    generalize l.takeWhile (· ≠ 0) = t
    cases h1 : contains b!"docker" t <;> cases h2 : contains b!"lxc" t
    · have hn : ¬ AboutContainer t := by simp [AboutContainer, ← contains_iff, h1, h2]
      simp only [skip t _ hn]
      simpa [h1, h2] using ih
    · have hn : AboutContainer t := by simp [AboutContainer, ← contains_iff, h1, h2]
      simp only [here t _ hn, exists_eq_left, ← contains_iff, h2]
      cases c <;> simp_all
    · have hn : AboutContainer t := by simp [AboutContainer, ← contains_iff, h1, h2]
      simp only [here t _ hn, exists_eq_left, ← contains_iff, h2]
      cases c <;> simp_all
    · have hn : AboutContainer t := by simp [AboutContainer, ← contains_iff, h1, h2]
      simp only [here t _ hn, exists_eq_left, ← contains_iff, h2]
      cases c <;> simp_all

theorem systemdLines_cases (ls : List Bytes) :
    ((∀ x ∈ ls, ¬ AboutContainer x) ∧ systemdLines ls = .docker)
    ∨ ∃ l, FirstLine AboutContainer ls l ∧
      ((Mentions l b!"docker" ∧ systemdLines ls = .docker) ∨ (¬ Mentions l b!"docker" ∧ systemdLines ls = .lxc)) := by
  induction ls with
  | nil => exact .inl ⟨by simp, rfl⟩
  | cons l ls ih =>
    cases h1 : contains b!"docker" l
    · cases h2 : contains b!"lxc" l
      · have hn : ¬ AboutContainer l := by simp [AboutContainer, ← contains_iff, h1, h2]
        simp only [systemdLines, h1, h2]
        rcases ih with ⟨ha, hb⟩ | ⟨x, ⟨b, a, rfl, h3, h4⟩, hx⟩
        · exact .inl ⟨by simpa [hn] using ha, by simpa using hb⟩
        · exact .inr ⟨x, ⟨l :: b, a, rfl, by simpa [hn] using h3, h4⟩, by simpa using hx⟩
      · exact .inr ⟨l, ⟨[], ls, rfl, by simp, .inr ((contains_iff ..).mp h2)⟩,
          .inr ⟨by rw [← contains_iff, h1]; simp, by simp [systemdLines, h1, h2]⟩⟩
    · exact .inr ⟨l, ⟨[], ls, rfl, by simp, .inl ((contains_iff ..).mp h1)⟩,
        .inl ⟨(contains_iff ..).mp h1, by simp [systemdLines, h1]⟩⟩

theorem firstLine_unique {p : Bytes → Prop} {ls : List Bytes} {x y : Bytes} (h : FirstLine p ls x) (h' : FirstLine p ls y) : x = y := by
  obtain ⟨b, a, rfl, h1, h2⟩ := h
  obtain ⟨b', a', he, h1', h2'⟩ := h'
  induction b generalizing b' with
  | nil =>
    cases b' with
    | nil => simp at he; exact he.1
    | cons z b' => simp at he; exact absurd (he.1 ▸ h2) (h1' z (by simp))
  | cons z b ih =>
    cases b' with
    | nil => simp at he; exact absurd (he.1 ▸ h2') (h1 z (by simp))
    | cons z' b' =>
      simp only [List.cons_append, List.cons.injEq] at he
      exact ih (fun w hw => h1 w (by simp [hw])) b' he.2 (fun w hw => h1' w (by simp [hw]))

theorem firstLine_some {p : Bytes → Prop} {ls : List Bytes} {x : Bytes} (h : FirstLine p ls x) : ¬ ∀ y ∈ ls, ¬ p y := by
  obtain ⟨b, a, rfl, _, h2⟩ := h
  intro hn; exact hn x (by simp) h2

/-- **C45**: the kind of container is decided by the first line about a container in the cgroup file, or else by the systemd
    file. -/
theorem C45_container_type (h : Host) (c : Container) : containerType h = c ↔ ContainerIs h c := by
  have hproc : ∃ ls : List Bytes, cgroupLines h = ls.map (fun l => l.takeWhile (· ≠ 0)) ∧ checkContainerProc h = procLines ls := by
    cases hg : h.cgroup with
    | none => exact ⟨[], by simp [cgroupLines, hg], by simp [checkContainerProc, hg, procLines]⟩
    | some s => exact ⟨splitString s 10, by simp [cgroupLines, hg], by simp [checkContainerProc, hg]⟩
  obtain ⟨ls, hls, hp⟩ := hproc
  have exists_ : ContainerIs h (containerType h) := by
    simp only [containerType, hp]
    by_cases h0 : procLines ls = .none
    · rw [if_pos h0]
      have hno : ∀ x ∈ cgroupLines h, ¬ AboutContainer x := by rw [hls]; exact (procLines_none ls).mp h0
      cases hs : h.systemdContainer with
      | none => simp only [checkSystemdContainer, hs]; exact .no hno hs
      | some s =>
        simp only [checkSystemdContainer, hs]
        rcases systemdLines_cases (splitString s 10) with ⟨ha, hb⟩ | ⟨l, hl, ⟨h1, h2⟩ | ⟨h1, h2⟩⟩
        · rw [hb]; exact .systemdOther hno hs ha
        · rw [h2]; exact .systemdDocker hno hs hl h1
        · rw [h2]; exact .systemdLxc hno hs hl h1
    · rw [if_neg h0]
      obtain ⟨l, hl, h1 | h1⟩ := (procLines_some ls _ h0).mp rfl
      · rw [h1.1]; exact .cgroupLxc (hls ▸ hl) h1.2
      · rw [h1.1]; exact .cgroupDocker (hls ▸ hl) h1.2
  constructor
  · rintro rfl; exact exists_
  · intro hc
    have uniq : ∀ c d, ContainerIs h c → ContainerIs h d → c = d := by
      intro c d hc hd
      cases hc <;> cases hd <;>
        first
        | rfl
        | (exfalso; rename_i a b c d; first
            | exact b (firstLine_unique c a ▸ d)
            | exact d (firstLine_unique a c ▸ b))
        | grind [firstLine_unique, firstLine_some]
    exact uniq _ _ exists_ hc

/-! ## DMI texts -/

theorem last_two (l : Bytes) (h : 2 ≤ l.length) : ∃ a x y, l = a ++ [x, y] := by
  refine ⟨l.take (l.length - 2), l[l.length - 2], l[l.length - 1], ?_⟩
  have h1 := List.take_append_drop (l.length - 2) l
  have h2 : l.drop (l.length - 2) = [l[l.length - 2], l[l.length - 1]] := by
    rw [List.drop_eq_getElem_cons (by omega), List.drop_eq_getElem_cons (by omega)]
    have : l.length - 2 + 1 = l.length - 1 := by omega
    simp only [this]
    rw [List.drop_of_length_le (by omega)]
  rw [h2] at h1; exact h1.symm

theorem dmiDescription_ok (h : Host) (d : Bytes) : dmiDescription h = .ok d ↔
    (h.modalias = none ∧ d = []) ∨ ∃ c, h.modalias = some c ∧ d = toUpperCopy (trimCopy (c.take 256)) ∧ d ≠ [] := by
  cases hm : h.modalias with
  | none => simp [dmiDescription, hm, eq_comm]
  | some c =>
    simp only [dmiDescription, hm]
    obtain ⟨_, _, _, _, _, _, hlast⟩ := C35_trim_spec (c.take 256)
    have hup : ∀ b : UInt8, (toUpperByte b = 13 ∨ toUpperByte b = 10) → Spec.White b := by
      have : ∀ b : UInt8, (toUpperByte b = 13 ∨ toUpperByte b = 10) → isSpace b = true := forall_uint8 (by decide +kernel)
      intro b hb; exact (isSpace_iff b).mp (this b hb)
    generalize ht : trimCopy (c.take 256) = t at hlast
    by_cases h0 : (toUpperCopy t).length = 0
    · rw [if_pos h0]
      have : toUpperCopy t = [] := by simpa using h0
      constructor
      · intro h; simp at h
      · rintro (⟨h, _⟩ | ⟨c', hc, rfl, hne⟩)
        · simp at h
        · simp only [Option.some.injEq] at hc; subst hc; rw [ht, this] at hne; simp at hne
    · rw [if_neg h0]
      have hn : ¬ ((toUpperCopy t).getD ((toUpperCopy t).length - 1) 0 = 13 ∨ (toUpperCopy t).getD ((toUpperCopy t).length - 1) 0 = 10) := by
        intro hh
        have hlen : t.length ≠ 0 := by simpa [toUpperCopy] using h0
        have hg : (toUpperCopy t).getD ((toUpperCopy t).length - 1) 0 = toUpperByte (t[t.length - 1]'(by omega)) := by
          simp only [toUpperCopy, List.length_map, List.getD_eq_getElem?_getD, List.getElem?_map]
          rw [List.getElem?_eq_getElem (by omega)]; rfl
        rw [hg] at hh
        refine (hlast _ ?_).1 (hup _ hh)
        rw [List.getLast?_eq_getElem?, List.getElem?_eq_getElem]
      rw [if_neg hn]
      constructor
      · intro h; simp only [Outcome.ok.injEq] at h; subst h
        exact .inr ⟨c, rfl, by rw [ht], by intro h; rw [h] at h0; simp at h0⟩
      · rintro (⟨h, _⟩ | ⟨c', hc, rfl, hne⟩)
        · simp at h
        · simp only [Option.some.injEq] at hc; subst hc; rw [ht]

theorem dmiSysVendor_ok (h : Host) (s : Bytes) : dmiSysVendor h = .ok s ↔
    (h.sysVendor = none ∧ s = []) ∨ ∃ c, h.sysVendor = some c ∧
    ((∃ a x y, c.take 256 = a ++ [x, y] ∧ (x = 13 ∨ x = 10) ∧ s = a ++ [x])
     ∨ (∃ a x y, c.take 256 = a ++ [x, y] ∧ x ≠ 13 ∧ x ≠ 10 ∧ s = a ++ [x, y])) := by
  cases hm : h.sysVendor with
  | none => simp [dmiSysVendor, hm, eq_comm]
  | some c =>
    simp only [dmiSysVendor, hm, Option.some.injEq, reduceCtorEq, false_and, false_or, exists_eq_left']
    generalize c.take 256 = t
    by_cases h2 : t.length < 2
    · rw [if_pos h2]
      constructor
      · intro h; simp at h
      · rintro (⟨a, x, y, rfl, _⟩ | ⟨a, x, y, rfl, _⟩) <;> simp at h2 <;> omega
    · rw [if_neg h2]
      obtain ⟨a, x, y, rfl⟩ := last_two t (by omega)
      have hg : (a ++ [x, y]).getD ((a ++ [x, y]).length - 2) 0 = x := by simp
      have htk : (a ++ [x, y]).take ((a ++ [x, y]).length - 1) = a ++ [x] := by
        rw [show a ++ [x, y] = (a ++ [x]) ++ [y] by simp]
        rw [List.take_left' (by simp)]
      rw [hg, htk]
      constructor
      · intro h
        split at h
        · rename_i hx; simp only [Outcome.ok.injEq] at h; exact .inl ⟨a, x, y, rfl, hx, h.symm⟩
        · rename_i hx; simp only [Outcome.ok.injEq] at h; exact .inr ⟨a, x, y, rfl, by grind, by grind, h.symm⟩
      · rintro (⟨a', x', y', he, hx, rfl⟩ | ⟨a', x', y', he, hx, hx', rfl⟩)
        · have : a = a' ∧ [x, y] = [x', y'] := List.append_inj' he rfl
          obtain ⟨rfl, h3⟩ := this; cases h3
          rw [if_pos hx]
        · have : a = a' ∧ [x, y] = [x', y'] := List.append_inj' he rfl
          obtain ⟨rfl, h3⟩ := this; cases h3
          rw [if_neg (by grind)]

theorem dmiInfo_ok (h : Host) (d : Dmi) : dmiInfo h = .ok d ↔ Texts h d.biosDescription d.biosVendor d.sysVendor := by
  have hb : ∀ v : Bytes, v = dmiBiosVendor h ↔
      ((h.sysVendor = none ∧ v = []) ∨ ∃ c, h.sysVendor = some c ∧ v = toUpperCopy (trimCopy (c.take 256))) := by
    intro v; cases hs : h.sysVendor <;> simp [dmiBiosVendor, hs]
  simp only [dmiInfo]
  constructor
  · intro hd
    obtain ⟨de, h1, hd⟩ := Outcome.bind_eq_ok.mp hd
    obtain ⟨sy, h2, hd⟩ := Outcome.bind_eq_ok.mp hd
    simp only [Outcome.pure_eq, Outcome.ok.injEq] at hd
    subst hd
    exact ⟨(dmiDescription_ok h _).mp h1, (hb _).mp rfl, (dmiSysVendor_ok h _).mp h2⟩
  · rintro ⟨h1, h2, h3⟩
    rw [(dmiDescription_ok h _).mpr h1, (dmiSysVendor_ok h _).mpr h3, ← (hb _).mpr h2]; rfl

theorem mkEnv_ok (h : Host) (e : Env) : mkEnv h = .ok e ↔
    Texts h e.dmi.biosDescription e.dmi.biosVendor e.dmi.sysVendor ∧ e.cpuVendor = h.cpuVendor ∧ e.cpuBrand = h.cpuBrand
      ∧ ContainerIs h e.container := by
  simp only [mkEnv, ← C45_container_type, ← dmiInfo_ok]
  constructor
  · intro he
    obtain ⟨d, h1, he⟩ := Outcome.bind_eq_ok.mp he
    simp only [Outcome.pure_eq, Outcome.ok.injEq] at he
    subst he
    exact ⟨h1, rfl, rfl, rfl⟩
  · rintro ⟨h1, h2, h3, h4⟩
    rw [h1, ← h2, ← h3, h4]; rfl

theorem trimCopy_nil (t : Bytes) : trimCopy t = [] ↔ ∀ b ∈ t, Spec.White b ∨ b = 0 := by
  constructor
  · intro h
    obtain ⟨pre, post, he, h1, h2, _⟩ := C35_trim_spec t
    rw [h] at he
    intro b hb
    rw [he] at hb
    simp only [List.append_nil, List.mem_append] at hb
    rcases hb with hb | hb
    · exact .inl (h1 b hb)
    · exact h2 b hb
  · intro h
    unfold trimCopy
    rw [List.reverse_eq_nil_iff, Ini.dropWhile_nil]
    intro c hc
    rw [List.mem_reverse] at hc
    have := h c ((List.dropWhile_sublist isSpace).mem hc)
    rcases this with h | h
    · simp [(isSpace_iff c).mpr h]
    · simp [h]

/-- **C45**: looking at the environment is undefined exactly when the modalias file can be read but is blank, or the vendor file
    can be read but has fewer than two bytes. -/
theorem C45_undefined_iff (h : Host) : execSummary h = .ub ↔
    (∃ c, h.modalias = some c ∧ ∀ b ∈ c.take 256, Spec.White b ∨ b = 0)
    ∨ ∃ c, h.sysVendor = some c ∧ c.length < 2 := by
  have h1 : dmiDescription h = .ub ↔ ∃ c, h.modalias = some c ∧ ∀ b ∈ c.take 256, Spec.White b ∨ b = 0 := by
    cases hm : h.modalias with
    | none => simp [dmiDescription, hm]
    | some c =>
      simp only [dmiDescription, hm, Option.some.injEq, exists_eq_left', ← trimCopy_nil]
      constructor
      · intro hh
        split at hh
        · rename_i h0; simpa [toUpperCopy] using h0
        · simp at hh
      · intro hh; rw [hh]; rfl
  have h2 : dmiSysVendor h = .ub ↔ ∃ c, h.sysVendor = some c ∧ c.length < 2 := by
    cases hm : h.sysVendor with
    | none => simp [dmiSysVendor, hm]
    | some c =>
      simp only [dmiSysVendor, hm, Option.some.injEq, exists_eq_left', List.length_take]
      constructor
      · intro hh
        split at hh
        · omega
        · simp at hh
      · intro hh; rw [if_pos (by omega)]
  have h3 : ∀ x, dmiDescription h ≠ .throw x := by
    intro x
    cases hm : h.modalias with
    | none => simp [dmiDescription, hm]
    | some c => simp only [dmiDescription, hm]; split <;> simp
  rw [← h1, ← h2]
  simp only [execSummary, mkEnv, dmiInfo]
  cases hd : dmiDescription h with
  | ub => simp
  | throw x => exact absurd hd (h3 x)
  | ok d => cases hs : dmiSysVendor h <;> simp

/-- **C45**: no exception escapes. -/
theorem C45_no_exception (h : Host) (x : Exn) : execSummary h ≠ .throw x := by
  have h3 : ∀ x, dmiDescription h ≠ .throw x := by
    intro x
    cases hm : h.modalias with
    | none => simp [dmiDescription, hm]
    | some c => simp only [dmiDescription, hm]; split <;> simp
  have h4 : ∀ x, dmiSysVendor h ≠ .throw x := by
    intro x
    cases hm : h.sysVendor with
    | none => simp [dmiSysVendor, hm]
    | some c => simp only [dmiSysVendor, hm]; split <;> simp
  simp only [execSummary, mkEnv, dmiInfo]
  cases hd : dmiDescription h with
  | ub => simp
  | throw x => exact absurd hd (h3 x)
  | ok d => cases hs : dmiSysVendor h with
    | ub => simp
    | throw x => exact absurd hs (h4 x)
    | ok s => simp

/-! ## Clouds and virtual machines -/

theorem mentions_nil (w : Bytes) (hw : w ≠ []) : ¬ Mentions [] w := by
  rintro ⟨a, b, h⟩
  have h2 : a ++ w ++ b = [] := h.symm
  simp at h2; grind

/-- **C45**: the provider that is reported. -/
theorem C45_provider (h : Host) (e : Env) (he : mkEnv h = .ok e) (p : CloudProvider) :
    cloudProvider e = p ↔ ∃ desc bios sys, Texts h desc bios sys ∧ ProviderIs desc bios sys p := by
  have ht := ((mkEnv_ok h e).mp he).1
  have uniq : ∀ d b s, Texts h d b s → d = e.dmi.biosDescription ∧ b = e.dmi.biosVendor ∧ s = e.dmi.sysVendor := by
    intro d b s hs
    have a1 := (dmiInfo_ok h ⟨b, d, s⟩).mpr hs
    have a2 := (dmiInfo_ok h e.dmi).mpr ht
    rw [a1] at a2
    have := Outcome.ok.inj a2
    rw [← this]; simp
  have key : ∀ p, cloudProvider e = p ↔ ProviderIs e.dmi.biosDescription e.dmi.biosVendor e.dmi.sysVendor p := by
    generalize hd : e.dmi.biosDescription = d
    generalize hb : e.dmi.biosVendor = b
    generalize hs : e.dmi.sysVendor = s
    have ha : (contains b!"SEABIOS" b || contains b!"ALIBABA" d || contains b!"ALIBABA" s) = true ↔ NamesAli d b s := by
      simp only [Bool.or_eq_true, contains_iff, NamesAli, or_assoc]
    have hg : (contains b!"GOOGLE" s || contains b!"GOOGLECOMPUTEENGINE" d) = true ↔ NamesGoogle d s := by
      simp only [Bool.or_eq_true, contains_iff, NamesGoogle]
    have hw : (contains b!"AWS" b || contains b!"AMAZON" d || contains b!"AWS" s) = true ↔ NamesAws d b s := by
      simp only [Bool.or_eq_true, contains_iff, NamesAws, or_assoc]
    have hpc : (contains b!"HP-COMPAQ" d || contains b!"ASUS" d || contains b!"DELL" d) = true ↔ NamesPc d := by
      simp only [Bool.or_eq_true, contains_iff, NamesPc, or_assoc]
    have this : ProviderIs d b s (cloudProvider e) := by
      simp only [cloudProvider, hd, hb, hs]
      split
      · split
        · rename_i h; exact .ali (ha.mp h)
        · rename_i h1; split
          · rename_i h; exact .google (mt ha.mpr h1) (hg.mp h)
          · rename_i h2; split
            · rename_i h; exact .aws (mt ha.mpr h1) (mt hg.mpr h2) (hw.mp h)
            · rename_i h3; split
              · rename_i h; exact .onPremise (mt ha.mpr h1) (mt hg.mpr h2) (mt hw.mpr h3) (hpc.mp h)
              · rename_i h4; exact .unknown (mt ha.mpr h1) (mt hg.mpr h2) (mt hw.mpr h3) (mt hpc.mpr h4)
      · rename_i h
        have hd0 : d = [] := by
          cases d with
          | nil => rfl
          | cons => simp at h
        have hb0 : b = [] := by
          cases b with
          | nil => rfl
          | cons => simp at h
        have hs0 : s = [] := by
          cases s with
          | nil => rfl
          | cons => simp at h
        subst hd0 hb0 hs0
        exact .unknown (by simp [NamesAli, mentions_nil]) (by simp [NamesGoogle, mentions_nil]) (by simp [NamesAws, mentions_nil])
          (by simp [NamesPc, mentions_nil])
    intro p
    constructor
    · rintro rfl; exact this
    · intro hp
      revert this hp
      generalize cloudProvider e = q
      intro h1 h2
      cases h1 <;> cases h2 <;> first | rfl | contradiction
  rw [key]
  constructor
  · intro hp; exact ⟨_, _, _, ht, hp⟩
  · rintro ⟨d, b, s, hs, hp⟩
    obtain ⟨rfl, rfl, rfl⟩ := uniq d b s hs; exact hp

/-- **C45**: is_cloud holds iff one of the three known clouds is reported; Azure never is. -/
theorem C45_cloud_iff (e : Env) : (isCloud e = true ↔ cloudProvider e = .ali ∨ cloudProvider e = .google ∨ cloudProvider e = .aws)
    ∧ cloudProvider e ≠ .azure := by
  have hz : cloudProvider e ≠ .azure := by
    unfold cloudProvider
    dsimp only
    repeat' split
    all_goals simp
  refine ⟨?_, hz⟩
  cases h : cloudProvider e <;> simp [isCloud, h]
  exact hz h

theorem findInMap_bare (m ws : List (Bytes × VirtDetail)) (hp : m.Perm ws) (hb : ∀ p ∈ ws, p.2 ≠ .bareToMetal) (data : Bytes) :
    findInMap m data = .bareToMetal ↔ ¬ ∃ p ∈ ws, Mentions data p.1 := by
  unfold findInMap
  cases hf : m.find? (fun p => contains p.1 data) with
  | none =>
    simp only [true_iff]
    rintro ⟨p, hpw, hm⟩
    have := List.find?_eq_none.mp hf p (hp.mem_iff.mpr hpw)
    exact this ((contains_iff ..).mpr hm)
  | some p =>
    have h1 := List.find?_some hf
    have h2 := hp.mem_iff.mp (List.mem_of_find?_eq_some hf)
    constructor
    · intro h; exact absurd h (hb p h2)
    · intro h; exact absurd ⟨p, h2, (contains_iff ..).mp h1⟩ h

theorem findInMap_mem (m ws : List (Bytes × VirtDetail)) (hp : m.Perm ws) (data : Bytes) (d : VirtDetail)
    (h : findInMap m data = d) (hd : d ≠ .bareToMetal) : ∃ w, (w, d) ∈ ws ∧ Mentions data w := by
  unfold findInMap at h
  cases hf : m.find? (fun p => contains p.1 data) with
  | none => rw [hf] at h; exact absurd h.symm hd
  | some p =>
    rw [hf] at h; dsimp only at h; subst h
    have h1 := List.find?_some hf
    exact ⟨p.1, hp.mem_iff.mp (List.mem_of_find?_eq_some hf), (contains_iff ..).mp h1⟩

theorem vmWords_real : ∀ p ∈ vmWords, p.2 ≠ .bareToMetal := by decide
theorem cpuWords_real : ∀ p ∈ cpuWords, p.2 ≠ .bareToMetal := by decide

theorem names_cloud_iff (h : Host) (e : Env) (he : mkEnv h = .ok e) :
    isCloud e = true ↔ NamesCloud e.dmi.biosDescription e.dmi.biosVendor e.dmi.sysVendor := by
  have ht := ((mkEnv_ok h e).mp he).1
  rw [(C45_cloud_iff e).1]
  have hp : ∀ p, ProviderIs e.dmi.biosDescription e.dmi.biosVendor e.dmi.sysVendor p → cloudProvider e = p :=
    fun p hp => (C45_provider h e he p).mpr ⟨_, _, _, ht, hp⟩
  constructor
  · intro hc
    refine Classical.byContradiction fun hn => ?_
    simp only [NamesCloud, not_or] at hn
    by_cases hpc : NamesPc e.dmi.biosDescription
    · rw [hp _ (.onPremise hn.1 hn.2.1 hn.2.2 hpc)] at hc; simp at hc
    · rw [hp _ (.unknown hn.1 hn.2.1 hn.2.2 hpc)] at hc; simp at hc
  · intro hc
    by_cases ha : NamesAli e.dmi.biosDescription e.dmi.biosVendor e.dmi.sysVendor
    · exact .inl (hp _ (.ali ha))
    · by_cases hg : NamesGoogle e.dmi.biosDescription e.dmi.sysVendor
      · exact .inr (.inl (hp _ (.google ha hg)))
      · rcases hc with h | h | h
        · exact absurd h ha
        · exact absurd h hg
        · exact .inr (.inr (hp _ (.aws ha hg h)))

theorem bare_iff (h : Host) (e : Env) (hv : e.cpuVendor = h.cpuVendor) (hb : e.cpuBrand = h.cpuBrand) (ho : Host.Ordered h) :
    virtualizationDetail h e = .bareToMetal ↔
      ¬ NamesVm h e.dmi.biosDescription e.dmi.biosVendor e.dmi.sysVendor ∧ h.hypervisor = false ∧ ¬ isCloud e = true := by
  have f1 := fun d => findInMap_bare _ vmWords ho.1 vmWords_real d
  have f2 := fun d => findInMap_bare _ cpuWords ho.2 cpuWords_real d
  have hn : NamesVm h e.dmi.biosDescription e.dmi.biosVendor e.dmi.sysVendor ↔
      ¬ (findInMap h.vmOrder e.dmi.biosDescription = .bareToMetal ∧ findInMap h.vmOrder e.dmi.biosVendor = .bareToMetal
        ∧ findInMap h.vmOrder e.dmi.sysVendor = .bareToMetal ∧ findInMap h.cpuOrder e.cpuVendor = .bareToMetal
        ∧ findInMap h.cpuOrder e.cpuBrand = .bareToMetal) := by
    simp only [f1, f2, NamesVm, hv, hb]; grind
  rw [hn, Classical.not_not]
  simp only [virtualizationDetail]
  by_cases g1 : findInMap h.vmOrder e.dmi.biosDescription = .bareToMetal
  · by_cases g2 : findInMap h.vmOrder e.dmi.biosVendor = .bareToMetal
    · by_cases g3 : findInMap h.vmOrder e.dmi.sysVendor = .bareToMetal
      · by_cases g4 : findInMap h.cpuOrder e.cpuVendor = .bareToMetal
        · by_cases g5 : findInMap h.cpuOrder e.cpuBrand = .bareToMetal
          · cases hh : h.hypervisor <;> cases hc : isCloud e <;> simp [g1, g2, g3, g4, g5]
          · simp [g1, g2, g3, g4, g5]
        · simp [g1, g2, g3, g4]
      · simp [g1, g2, g3]
    · simp [g1, g2]
  · simp [g1]

/-- **C45**: "bare to metal" is reported exactly when no text names a virtualisation product, the hypervisor bit is clear and
    the texts name no cloud; in whatever order the tables are searched. -/
theorem C45_bare_iff (h : Host) (e : Env) (he : mkEnv h = .ok e) (ho : Host.Ordered h) :
    virtualizationDetail h e = .bareToMetal ↔
      ¬ NamesVm h e.dmi.biosDescription e.dmi.biosVendor e.dmi.sysVendor ∧ h.hypervisor = false
        ∧ ¬ NamesCloud e.dmi.biosDescription e.dmi.biosVendor e.dmi.sysVendor := by
  obtain ⟨_, hv, hb, _⟩ := (mkEnv_ok h e).mp he
  rw [← names_cloud_iff h e he]
  exact bare_iff h e hv hb ho

/-- **C45**: a specific product is reported only if one of its names occurs in a text. -/
theorem C45_detail_named (h : Host) (e : Env) (he : mkEnv h = .ok e) (ho : Host.Ordered h) (d : VirtDetail)
    (hd : virtualizationDetail h e = d) (h1 : d ≠ .bareToMetal) (h2 : d ≠ .other) :
    (∃ w, (w, d) ∈ vmWords ∧ (Mentions e.dmi.biosDescription w ∨ Mentions e.dmi.biosVendor w ∨ Mentions e.dmi.sysVendor w))
    ∨ ∃ w, (w, d) ∈ cpuWords ∧ (Mentions h.cpuVendor w ∨ Mentions h.cpuBrand w) := by
  obtain ⟨_, hv, hb, _⟩ := (mkEnv_ok h e).mp he
  have f1 := fun x hx => findInMap_mem _ vmWords ho.1 x d hx h1
  have f2 := fun x hx => findInMap_mem _ cpuWords ho.2 x d hx h1
  simp only [virtualizationDetail] at hd
  by_cases g1 : findInMap h.vmOrder e.dmi.biosDescription = .bareToMetal
  · by_cases g2 : findInMap h.vmOrder e.dmi.biosVendor = .bareToMetal
    · by_cases g3 : findInMap h.vmOrder e.dmi.sysVendor = .bareToMetal
      · by_cases g4 : findInMap h.cpuOrder e.cpuVendor = .bareToMetal
        · by_cases g5 : findInMap h.cpuOrder e.cpuBrand = .bareToMetal
          · simp only [g1, g2, g3, g4, g5, if_true] at hd
            split at hd
            · exact absurd hd.symm h2
            · exact absurd hd.symm h1
          · simp only [g1, g2, g3, g4, g5, if_true, if_false] at hd
            obtain ⟨w, hw, hm⟩ := f2 _ hd
            exact .inr ⟨w, hw, .inr (hb ▸ hm)⟩
        · simp only [g1, g2, g3, g4, if_true, if_false] at hd
          obtain ⟨w, hw, hm⟩ := f2 _ hd
          exact .inr ⟨w, hw, .inl (hv ▸ hm)⟩
      · simp only [g1, g2, g3, if_true, if_false] at hd
        obtain ⟨w, hw, hm⟩ := f1 _ hd
        exact .inl ⟨w, hw, .inr (.inr hm)⟩
    · simp only [g1, g2, if_true, if_false] at hd
      obtain ⟨w, hw, hm⟩ := f1 _ hd
      exact .inl ⟨w, hw, .inr (.inl hm)⟩
  · simp only [g1, if_false] at hd
    obtain ⟨w, hw, hm⟩ := f1 _ hd
    exact .inl ⟨w, hw, .inl hm⟩

/-- **C45**: the summary: a container whenever container evidence exists, whatever the CPU and the texts say; otherwise a
    virtual machine iff a product or a cloud is named or the hypervisor bit is set; is_docker and is_cloud as their
    evidence says. -/
theorem C45_summary (h : Host) (s : ExecSummary) (hs : execSummary h = .ok s) (ho : Host.Ordered h) :
    ∃ desc bios sys, Texts h desc bios sys
      ∧ (s.virtualization = .container ↔ ¬ ContainerIs h .none)
      ∧ (s.virtualization = .vm ↔ ContainerIs h .none ∧ (NamesVm h desc bios sys ∨ h.hypervisor = true ∨ NamesCloud desc bios sys))
      ∧ (s.isDocker = true ↔ ContainerIs h .docker)
      ∧ (s.isCloud = true ↔ NamesCloud desc bios sys) := by
  obtain ⟨e, he, hs⟩ := Outcome.bind_eq_ok.mp hs
  simp only [Outcome.pure_eq, Outcome.ok.injEq] at hs
  subst hs
  obtain ⟨ht, _, _, hc⟩ := (mkEnv_ok h e).mp he
  have hcc : ∀ c, ContainerIs h c ↔ e.container = c := by
    intro c; rw [← C45_container_type] at hc ⊢; rw [hc]
  refine ⟨_, _, _, ht, ?_, ?_, ?_, names_cloud_iff h e he⟩
  · rw [hcc]; simp only [virtualization]
    by_cases h0 : e.container = .none
    · simp only [h0]; split
      · simp_all
      · split <;> simp
    · simp [h0]
  · have hb := C45_bare_iff h e he ho
    have hcl := names_cloud_iff h e he
    rw [hcc]; simp only [virtualization]
    by_cases h0 : e.container = .none
    · have hiff : (NamesVm h e.dmi.biosDescription e.dmi.biosVendor e.dmi.sysVendor ∨ h.hypervisor = true
          ∨ NamesCloud e.dmi.biosDescription e.dmi.biosVendor e.dmi.sysVendor) ↔ ¬ virtualizationDetail h e = .bareToMetal := by
        rw [hb]; cases h.hypervisor <;> grind
      rw [hiff]
      simp only [h0, ne_eq, not_true_eq_false, if_false, true_and]
      by_cases hd : virtualizationDetail h e = .bareToMetal
      · have hc0 : isCloud e = false := by
          have := (hb.mp hd).2.2; rw [← hcl] at this; simpa using this
        simp [hd, hc0]
      · simp [hd]
    · simp [h0]
  · rw [hcc]; simp

/-- **C45** (end to end): in a Docker container, without IDENTIFICATION_STRATEGY, identify_pc with the default strategy
    returns false and leaves the buffer alone. -/
theorem C45_docker_has_no_default_identifier (m : Machine) (h : Host) (hm : m.exec = execSummary h) (hv : m.strategyVar = none)
    (hd : ContainerIs h .docker) (ho : Host.Ordered h) (hu : execSummary h ≠ .ub) (hlog : m.logOverruns = false) (mem : Bytes) (n : Nat)
    (hn : 19 < n) : identifyPc m (-1) (some mem) n = .ok ⟨false, n, some mem⟩ := by
  cases he : execSummary h with
  | ub => exact absurd he hu
  | throw x => exact absurd he (C45_no_exception h x)
  | ok s =>
    obtain ⟨_, _, _, _, h1, _, h3, _⟩ := C45_summary h s he ho
    have hg := default_strategy_fails_in_docker_and_cloud m s (by rw [hm, he]) hv (.inl ⟨h1.mpr (fun hn => by
      rw [← C45_container_type] at hn hd; rw [hn] at hd; simp at hd), h3.mpr hd⟩)
    simp only [identifyPc]; rw [if_pos (by omega), hg, logged_eq hlog]

def sampleHost : Host where
  sysVendor := some b!"QEMU\n"
  modalias := some b!"dmi:bvnSeaBIOS:svnQEMU:\n"
  cgroup := some b!"1:cpu:/\n0::/docker/abc\n"
  systemdContainer := none
  cpuVendor := b!"GenuineIntel"
  cpuBrand := b!"Intel(R) Xeon(R)"
  hypervisor := true
  vmOrder := vmWords
  cpuOrder := cpuWords

example : execSummary sampleHost = .ok ⟨.container, true, false⟩ := by decide +kernel
example : execSummary { sampleHost with cgroup := none } = .ok ⟨.vm, false, false⟩ := by decide +kernel
example : ContainerIs sampleHost .docker := (C45_container_type ..).mp (by decide +kernel)
example : Host.Ordered sampleHost := ⟨.refl _, .refl _⟩

/-! ## C52: the environment is looked at once -/

/-- One call of identify_pc: the world at that time and the arguments. -/
structure IdentifyCall where
  machine : Machine
  host : Host
  strategy : Int
  buf : Option Bytes
  bufSize : Nat
  info : Bool

/-- A process that calls identify_pc repeatedly: `cache` is the static object. -/
inductive Calls : Option Env → List IdentifyCall → List (Option EnvInfo) → Prop
  | nil {cache : Option Env} : Calls cache [] []
  | cons {cache cache' : Option Env} {c : IdentifyCall} {cs : List IdentifyCall} {r : IdentifyResult} {i : Option EnvInfo}
      {is : List (Option EnvInfo)} :
      identifyPcEnv c.machine c.host cache c.strategy c.buf c.bufSize c.info = .ok (r, i, cache') → Calls cache' cs is →
      Calls cache (c :: cs) (i :: is)

theorem calls_cached {e : Env} {cs : List IdentifyCall} {is : List (Option EnvInfo)} (h : Calls (some e) cs is) :
    ∀ i ∈ is, ∀ x, i = some x → x.provider = cloudProvider e ∧ (x.virtualization = .container ↔ e.container ≠ .none) := by
  generalize hc : some e = cache at h
  induction h with
  | nil => simp
  | cons h1 _ ih =>
    subst hc
    simp only [identifyPcEnv] at h1
    obtain ⟨r0, _, h1⟩ := Outcome.bind_eq_ok.mp h1
    simp only [Outcome.ok_bind, Outcome.pure_eq, Outcome.ok.injEq, Prod.mk.injEq] at h1
    obtain ⟨_, h2, rfl⟩ := h1
    intro i hi x hx
    rcases List.mem_cons.mp hi with rfl | hi
    · subst hx
      split at h2
      · simp only [Option.some.injEq] at h2; subst h2
        refine ⟨rfl, ?_⟩
        simp only [virtualization]
        by_cases h0 : e.container = .none
        · simp only [h0]; split
          · simp_all
          · split <;> simp
        · simp [h0]
      · simp at h2
    · exact ih rfl i hi x hx

/-- **C52**: in one process, every identify_pc reports the cloud provider and the container state that were found by the first
    call, whatever the files say later. -/
theorem C52_first_call_decides {c : IdentifyCall} {cs : List IdentifyCall} {is : List (Option EnvInfo)}
    (h : Calls none (c :: cs) is) (x : EnvInfo) (hx : some x ∈ is) :
    (∃ desc bios sys, Texts c.host desc bios sys ∧ ProviderIs desc bios sys x.provider)
    ∧ (x.virtualization = .container ↔ ¬ ContainerIs c.host .none) := by
  cases h with
  | @cons _ cache' _ _ r i is h1 h2 =>
    have h1' := h1
    simp only [identifyPcEnv] at h1
    obtain ⟨r0, hr0, h1⟩ := Outcome.bind_eq_ok.mp h1
    obtain ⟨e, he, h1⟩ := Outcome.bind_eq_ok.mp h1
    simp only [Outcome.pure_eq, Outcome.ok.injEq, Prod.mk.injEq] at h1
    obtain ⟨_, hi, rfl⟩ := h1
    have hall : Calls (some e) (c :: cs) (i :: is) := by
      refine .cons (r := r) (cache' := some e) ?_ h2
      simp only [identifyPcEnv, hr0, Outcome.ok_bind, Outcome.pure_eq]
      simp_all
    obtain ⟨k1, k2⟩ := calls_cached hall _ hx x rfl
    refine ⟨(C45_provider c.host e he _).mp k1.symm, ?_⟩
    rw [k2]
    have hc := ((mkEnv_ok c.host e).mp he).2.2.2
    rw [← C45_container_type] at hc ⊢; rw [hc]

def sampleEnv : Option Env := match mkEnv sampleHost with
  | .ok e => some e
  | _ => none

example : Calls none [⟨sampleMachine, sampleHost, 0, none, 0, true⟩, ⟨sampleMachine, { sampleHost with cgroup := none }, 0, none, 0, true⟩]
    [some ⟨.unknown, .container, .other⟩, some ⟨.unknown, .container, .other⟩] :=
  .cons (r := ⟨false, 20, none⟩) (cache' := sampleEnv) (by decide +kernel)
    (.cons (r := ⟨false, 20, none⟩) (cache' := sampleEnv) (by decide +kernel) .nil)

end Licensecc
