import Verif.Model.ScarceWin
import Verif.Spec.ScarceWin
import Verif.Props.Scarce
import Verif.Props.LogTextWin
import Verif.Props.Windows
/-!
# C84 on Windows
-/
namespace Licensecc.Scarce
open Licensecc Licensecc.Spec

/-! ## Enough memory -/

theorem plenty_logWin (l : Win.Windows) : Plenty (logWin l) (l.world.machine.logged (.ok ())) := by
  have e : l.world.machine.logged (.ok ()) = if l.logOverruns then .ub else Pure.pure () := rfl
  rw [e]
  unfold logWin
  refine .ite (fun _ => .plain _) (fun _ => ?_)
  split
  · exact fun _ => rfl
  · exact fun _ => rfl

theorem plenty_verifyHashWin (b : Win.Bcrypt) (h sig : Bytes) : Plenty (verifyHashWin b h sig) (b.verifyHash h sig) := by
  unfold verifyHashWin Win.Bcrypt.verifyHash
  refine .bind (.step _) (fun blob => .ite (fun _ => .plain _) (fun _ => .request ?_))
  simp only [Bool.true_and]
  cases b.rsaProvider with
  | false => exact .pure _
  | true =>
    simp only [if_true]
    refine .bind (.plain _) (fun x => .request ?_)
    simp only [Bool.true_and]
    cases b.imports x.1 x.2 with
    | false => exact .pure _
    | true => exact .request (.pure _)

theorem plenty_verifyWin (b : Win.Bcrypt) (d sig : Bytes) : Plenty (verifyWin b d sig) (b.verify d sig) := by
  unfold verifyWin Win.Bcrypt.verify
  refine .request ?_
  simp only [Bool.true_and]
  cases b.hashProvider with
  | false => exact .step _
  | true =>
    simp only [if_true]
    cases b.properties with
    | false => exact .pure _
    | true =>
      simp only [if_true]
      refine .request (.request ?_)
      simp only [Bool.true_and]
      cases b.allocated with
      | false => exact .pure _
      | true =>
        simp only [if_true]
        refine .request ?_
        simp only [Bool.true_and]
        cases b.hashCreated with
        | false => exact .pure _
        | true =>
          simp only [if_true]
          refine .request ?_
          simp only [if_true]
          cases b.hash d with
          | none => exact .pure _
          | some h => exact plenty_verifyHashWin b h sig

theorem plenty_collectWin (n : Win.Net) (l : List Win.IpAdapter) :
    Plenty (collectWin n l) (n.collect l >>= fun x => .ok (x.1, x.2.map (·.2))) :=
  .bind (.step _) (fun _ => .pure _)

theorem plenty_adaptersWin (n : Win.Net) : Plenty (getAdapterInfosWin n) n.getAdapterInfos := by
  unfold getAdapterInfosWin Win.Net.getAdapterInfos Win.Net.getAdapterInfosNamed
  refine .request ?_
  simp only [Bool.true_and]
  cases n.alloc with
  | false => exact .pure _
  | true =>
    simp only [if_true]
    refine .request ?_
    simp only [if_true]
    cases n.first with
    | noError l => exact plenty_collectWin n l
    | other => exact .plain _
    | overflow =>
      simp only
      refine .request ?_
      simp only [Bool.true_and]
      cases n.alloc2 with
      | false => exact .pure _
      | true =>
        simp only [if_true]
        refine .request ?_
        simp only [if_true]
        cases n.second with
        | noError l => exact plenty_collectWin n l
        | other => exact .pure _
        | overflow => exact .pure _

theorem plenty_lookAt (d : Win.Drive) : Plenty (lookAt d) (.ok d) := by
  unfold lookAt
  split
  · exact .request (.pure _)
  · exact .pure _

theorem plenty_driveLoop : ∀ (ds : List Win.Drive) (n : Nat), Plenty (driveLoop n ds) (.ok (Win.disksOfDrives n ds))
  | [], n => .pure _
  | d :: ds, n => by
    rw [driveLoop, Win.disksOfDrives]
    refine .after (plenty_lookAt d) ?_
    cases Win.diskOfDrive n d with
    | none => exact plenty_driveLoop ds n
    | some x => exact .need (.after (plenty_driveLoop ds (n + 1)) (.pure _))

theorem plenty_disksWin (ds : List Win.Drive) : Plenty (getDiskInfosWin ds) (.ok (Win.getDiskInfos ds)) :=
  .request (.after (plenty_driveLoop _ _) (.pure _))

theorem plenty_dmiWin (raw : Option Bytes) : Plenty (dmiInfoWin raw) (Win.winDmiInfo raw) := by
  unfold dmiInfoWin
  refine .request ?_
  simp only [if_true]
  cases raw with
  | none => exact .plain _
  | some t =>
    refine .need (.request ?_)
    simp only [if_true]
    exact .step _

theorem plenty_mkEnvWin (h : Win.WinHost) : Plenty (mkEnvWin h) h.mkEnv :=
  .need (.bind (plenty_dmiWin _) (fun _ => .pure _))

theorem faithful_windows (l : Win.Windows) : Faithful (windowsHooks l) :=
  ⟨plenty_verifyWin l.crypt, plenty_adaptersWin l.net, plenty_disksWin l.drives, plenty_logWin l⟩

theorem plenty_execWin (l : Win.Windows) : Plenty (exec (windowsHooks l)) l.world.machine.exec :=
  .bind (plenty_mkEnvWin l.host) (fun _ => .step _)

/-- With enough memory `acquire_license` and `identify_pc` are the functions of the first model on Windows too. -/
theorem C84_windows_enough (cfg : Config) (l : Win.Windows) (n : Nat) :
    (∀ caller hint out, ((acquire cfg (windowsHooks l) caller hint out).run enough n).1 = ended (Licensecc.acquire cfg l.world caller hint out))
      ∧ (∀ cache strategy buf size info, ((identify (windowsHooks l) cache strategy buf size info).run enough n).1
          = ended (Inspector.identifyPcWin l.world.machine l.host cache strategy buf size info)) :=
  ⟨fun caller hint out => plenty_acquire (faithful_windows l) n, fun cache strategy buf size info => by
    rw [plenty_identify (faithful_windows l) (plenty_execWin l) (plenty_mkEnvWin l.host) n]
    rfl⟩

/-! ## Whatever memory there is -/

theorem gives_collectWin {m : Memory} {n : Win.Net} {l : List Win.IpAdapter} {x : FuncRet × List Adapter} (g : Gives m (collectWin n l) x) :
    (n.collect l >>= fun x => Outcome.ok (x.1, x.2.map (·.2))) = .ok x := by
  obtain ⟨y, h1, g⟩ := gives_stepBind g
  rw [h1]
  exact congrArg Outcome.ok (gives_pure g)

theorem gives_adaptersWin {m : Memory} {n : Win.Net} {x : FuncRet × List Adapter} (g : Gives m (getAdapterInfosWin n) x) :
    x.1 ≠ .ok ∨ n.getAdapterInfos = .ok x := by
  unfold Win.Net.getAdapterInfos Win.Net.getAdapterInfosNamed
  obtain ⟨b, _, g⟩ := gives_bind g
  split at g
  · rename_i hb
    simp only [Bool.and_eq_true] at hb
    rw [hb.2]
    obtain ⟨c, _, g⟩ := gives_bind g
    split at g
    · cases hf : n.first with
      | noError l => rw [hf] at g; exact .inr (gives_collectWin g)
      | other => rw [hf] at g; cases gives_plain g
      | overflow =>
        rw [hf] at g
        obtain ⟨b, _, g⟩ := gives_bind g
        split at g
        · rename_i hb
          simp only [Bool.and_eq_true] at hb
          rw [hb.2]
          obtain ⟨c, _, g⟩ := gives_bind g
          split at g
          · cases hf : n.second with
            | noError l => rw [hf] at g; exact .inr (gives_collectWin g)
            | other => rw [hf] at g; left; rw [← gives_pure g]; simp
            | overflow => rw [hf] at g; left; rw [← gives_pure g]; simp
          · left; rw [← gives_pure g]; simp
        · left; rw [← gives_pure g]; simp
    · cases gives_plain g
  · left; rw [← gives_pure g]; simp

/-- A drive as it is, or one whose volume was missed. -/
def DriveLess (d d' : Win.Drive) : Prop := d' = d ∨ d' = { d with volume := none }

/-- The volumes of some drives were missed. -/
inductive VolumesLess : List Win.Drive → List Win.Drive → Prop where
  | nil : VolumesLess [] []
  | cons {d d' ds ds'} : DriveLess d d' → VolumesLess ds ds' → VolumesLess (d :: ds) (d' :: ds')

/-- All drives were missed, or the volumes of some of them. -/
def DrivesLess (ds ds' : List Win.Drive) : Prop := ds' = [] ∨ VolumesLess ds ds'

theorem gives_lookAt {m : Memory} {d d' : Win.Drive} (g : Gives m (lookAt d) d') : DriveLess d d' := by
  unfold lookAt at g
  split at g
  · obtain ⟨b, _, g⟩ := gives_bind g
    split at g
    · exact .inl (gives_pure g).symm
    · exact .inr (gives_pure g).symm
  · exact .inl (gives_pure g).symm

theorem gives_driveLoop {m : Memory} : ∀ {ds : List Win.Drive} {n : Nat} {l : List Disk}, Gives m (driveLoop n ds) l →
    ∃ ds', VolumesLess ds ds' ∧ l = Win.disksOfDrives n ds'
  | [], n, l, g => ⟨[], .nil, (gives_pure g).symm⟩
  | d :: ds, n, l, g => by
    rw [driveLoop] at g
    obtain ⟨d', g1, g⟩ := gives_bind g
    cases hd : Win.diskOfDrive n d' with
    | none =>
      rw [hd] at g
      obtain ⟨ds', h1, h2⟩ := gives_driveLoop g
      exact ⟨d' :: ds', .cons (gives_lookAt g1) h1, by rw [Win.disksOfDrives, hd]; exact h2⟩
    | some x =>
      rw [hd] at g
      replace g := gives_need g
      obtain ⟨xs, g2, g⟩ := gives_bind g
      obtain ⟨ds', h1, h2⟩ := gives_driveLoop g2
      exact ⟨d' :: ds', .cons (gives_lookAt g1) h1, by rw [Win.disksOfDrives, hd, ← gives_pure g, h2]⟩

theorem volumesLess_refl : ∀ (ds : List Win.Drive), VolumesLess ds ds
  | [] => .nil
  | _ :: ds => .cons (.inl rfl) (volumesLess_refl ds)

theorem volumesLess_append : ∀ {a a' : List Win.Drive} (b : List Win.Drive), VolumesLess a a' →
    VolumesLess (a ++ b) (a' ++ b)
  | _, _, b, .nil => volumesLess_refl b
  | _, _, b, .cons h t => .cons h (volumesLess_append b t)

theorem volumesLess_length {a a' : List Win.Drive} (h : VolumesLess a a') : a'.length = a.length := by
  induction h with
  | nil => rfl
  | cons _ _ ih => simp [ih]

theorem volumesLess_take {a a' : List Win.Drive} (k : Nat) (h : VolumesLess a a') : VolumesLess (a.take k) (a'.take k) := by
  induction h generalizing k with
  | nil => simpa using VolumesLess.nil
  | cons hd _ ih =>
    cases k with
    | zero => exact .nil
    | succ k => exact .cons hd (ih k)

theorem gives_disksWin {m : Memory} {ds : List Win.Drive} {x : FuncRet × List Disk} (g : Gives m (getDiskInfosWin ds) x) :
    ∃ ds', DrivesLess ds ds' ∧ Win.getDiskInfos ds' = x := by
  obtain ⟨b, _, g⟩ := gives_bind g
  cases b with
  | false => exact ⟨[], .inl rfl, gives_pure (gives_pureBind g)⟩
  | true =>
    obtain ⟨l, g1, g⟩ := gives_bind (show Gives m (driveLoop 0 (ds.take 40) >>= fun l => pure (if l.length > 0 then (FuncRet.ok, l) else (.notAvail, []))) x from g)
    obtain ⟨ds', h1, rfl⟩ := gives_driveLoop g1
    refine ⟨ds' ++ ds.drop 40, .inr ?_, ?_⟩
    · have := volumesLess_append (ds.drop 40) h1
      rwa [List.take_append_drop] at this
    · rw [← gives_pure g]
      have hl := volumesLess_length h1
      have : (ds' ++ ds.drop 40).take 40 = ds' := by
        rw [List.length_take] at hl
        by_cases hlt : ds.length ≤ 40
        · rw [List.drop_of_length_le hlt, List.append_nil, List.take_of_length_le (by omega)]
        · rw [List.take_append_of_le_length (by omega), List.take_of_length_le (by omega)]
      unfold Win.getDiskInfos
      rw [this]

/-- The machine of a Windows computer of which less of the drives is there. -/
def nearWindows (l : Win.Windows) (d : Machine) : Prop :=
  ∃ drives, DrivesLess l.drives drives ∧ d = { l with drives := drives }.world.machine

theorem gives_ethernetWin {m : Memory} {l : Win.Windows} {b : Bool} {x : FuncRet × List Payload}
    (g : Gives m (generateEthernetIds (windowsHooks l) b) x) :
    x.1 ≠ .ok ∨ Licensecc.generateEthernetIds l.world.machine b = .ok x := by
  obtain ⟨⟨r, as⟩, g1, g⟩ := gives_bind g
  simp only at g
  rcases gives_adaptersWin g1 with h | h
  · left
    simp only at h
    rw [if_pos h] at g
    rw [← gives_pure g]; exact h
  · right
    unfold Licensecc.generateEthernetIds
    have h' : l.world.machine.adapters = .ok (r, as) := h
    rw [h']
    show (if r ≠ .ok then _ else _) = _
    split at g
    · rename_i hr; rw [if_pos hr]; exact congrArg Outcome.ok (gives_pure g)
    · rename_i hr
      rw [if_neg hr]
      split at g
      · rename_i hl; rw [if_pos hl]; exact congrArg Outcome.ok (gives_pure g)
      · rename_i hl; rw [if_neg hl]; exact gives_step g

theorem gives_diskIdsWin {m : Memory} {l : Win.Windows} {x : FuncRet × List Payload} (g : Gives m (generateDiskIds (windowsHooks l)) x) :
    ∃ d, nearWindows l d ∧ Licensecc.generateDiskIds d = .ok x := by
  obtain ⟨⟨r, ds⟩, g1, g⟩ := gives_bind g
  obtain ⟨d, hd, he⟩ := gives_disksWin g1
  refine ⟨_, ⟨d, hd, rfl⟩, ?_⟩
  unfold Licensecc.generateDiskIds
  have : { l with drives := d }.world.machine.disks = .ok (r, ds) := congrArg Outcome.ok he
  rw [this]
  show (if r ≠ .ok then _ else _) = _
  simp only at g
  split at g
  · rename_i hr; rw [if_pos hr]; exact congrArg Outcome.ok (gives_pure g)
  · rename_i hr
    rw [if_neg hr]
    simp only
    split at g
    · rename_i hl; rw [if_pos hl]; exact congrArg Outcome.ok (gives_pure g)
    · rename_i hl; rw [if_neg hl]; exact gives_step g

theorem near_self (l : Win.Windows) : nearWindows l l.world.machine := ⟨l.drives, .inr (volumesLess_refl _), rfl⟩

/-- Overlooking drives brings nothing onto the computer. -/
theorem disks_of_less {ds ds' : List Win.Drive} (h : VolumesLess ds ds') : ∀ {n n' : Nat} {x : Disk}, x ∈ Win.disksOfDrives n' ds' →
    ∃ y ∈ Win.disksOfDrives n ds, y.snInit = x.snInit ∧ y.sn = x.sn ∧ y.labelInit = x.labelInit ∧ y.label = x.label := by
  induction h with
  | nil => intro n n' x hx; simp [Win.disksOfDrives] at hx
  | @cons d d' ds ds' hd _ ih =>
    intro n n' x hx
    rw [Win.disksOfDrives] at hx
    have tail : ∀ {k : Nat}, x ∈ Win.disksOfDrives k ds' → ∃ y ∈ Win.disksOfDrives n (d :: ds),
        y.snInit = x.snInit ∧ y.sn = x.sn ∧ y.labelInit = x.labelInit ∧ y.label = x.label := by
      intro k hx
      rw [Win.disksOfDrives]
      cases Win.diskOfDrive n d with
      | none => exact ih hx
      | some z =>
        obtain ⟨y, hy, e⟩ := ih (n := n + 1) hx
        exact ⟨y, by simp [hy], e⟩
    cases hx' : Win.diskOfDrive n' d' with
    | none => rw [hx'] at hx; exact tail hx
    | some z =>
      rw [hx'] at hx
      simp only [List.mem_cons] at hx
      rcases hx with rfl | hx
      · rcases hd with rfl | rfl
        · rw [Win.disksOfDrives]
          unfold Win.diskOfDrive at hx' ⊢
          split at hx'
          · rename_i hf
            rw [if_pos hf]
            split at hx'
            · simp only [Option.some.injEq] at hx'
              subst hx'
              refine ⟨_, List.mem_cons_self, ?_⟩
              exact ⟨rfl, rfl, rfl, rfl⟩
            · simp at hx'
          · simp at hx'
        · unfold Win.diskOfDrive at hx'
          split at hx' <;> simp at hx'
      · exact tail hx

theorem near_extends {l : Win.Windows} {d : Machine} (h : nearWindows l d) : Extends d l.world.machine := by
  obtain ⟨drives, hd, rfl⟩ := h
  refine ⟨fun as has => ⟨as, has, fun a ha => ha⟩, ?_⟩
  intro ds hds
  have hds' : Win.getDiskInfos drives = (.ok, ds) := Outcome.ok.inj hds
  unfold Win.getDiskInfos at hds'
  simp only at hds'
  split at hds'
  · rename_i hlen
    simp only [Prod.mk.injEq, true_and] at hds'
    subst hds'
    rcases hd with rfl | hd
    · simp [Win.disksOfDrives] at hlen
    · have key := fun x hx => disks_of_less (volumesLess_take 40 hd) (n := 0) (n' := 0) (x := x) hx
      refine ⟨Win.disksOfDrives 0 (l.drives.take 40), ?_, ?_⟩
      · show Outcome.ok (Win.getDiskInfos l.drives) = _
        unfold Win.getDiskInfos
        simp only
        obtain ⟨x, hx⟩ := List.exists_mem_of_length_pos hlen
        obtain ⟨y, hy, _⟩ := key x hx
        rw [if_pos (List.length_pos_of_mem hy)]
      · intro x hx
        obtain ⟨y, hy, e1, e2, e3, e4⟩ := key x hx
        exact ⟨fun h => ⟨y, hy, by rw [e1, h], e2⟩, fun h => ⟨y, hy, by rw [e3, h], e4⟩⟩
  · simp at hds'

theorem gives_idsWin {m : Memory} {l : Win.Windows} {s : Strategy} {ids : List HwId} (g : Gives m (alternativeIds (windowsHooks l) s) ids) :
    ids = [] ∨ ∃ d, nearWindows l d ∧ Licensecc.alternativeIds d s = .ok ids := by
  have eth : ∀ {s : Strategy} {b : Bool}, Gives m (generateEthernetIds (windowsHooks l) b >>= makeIds s) ids →
      ids = [] ∨ ∃ x, Licensecc.generateEthernetIds l.world.machine b = .ok x
        ∧ (if x.1 = .ok then x.2.mapM (mkId s.code) else Pure.pure []) = Outcome.ok ids := by
    intro s b g
    obtain ⟨x, g1, g⟩ := gives_bind g
    have g2 := gives_makeIds g
    rcases gives_ethernetWin g1 with h | h
    · left
      rw [if_neg h] at g2
      simpa using g2.symm
    · exact .inr ⟨x, h, g2⟩
  cases s with
  | default => left; exact (gives_pure g).symm
  | ethernet =>
    rcases eth g with h | ⟨x, h1, h2⟩
    · exact .inl h
    · right
      refine ⟨_, near_self l, ?_⟩
      show (Licensecc.generateEthernetIds l.world.machine false >>= fun x => if x.1 = .ok then x.2.mapM (mkId Strategy.ethernet.code) else Pure.pure []) = _
      rw [h1]; exact h2
  | ip =>
    rcases eth g with h | ⟨x, h1, h2⟩
    · exact .inl h
    · right
      refine ⟨_, near_self l, ?_⟩
      show (Licensecc.generateEthernetIds l.world.machine true >>= fun x => if x.1 = .ok then x.2.mapM (mkId Strategy.ip.code) else Pure.pure []) = _
      rw [h1]; exact h2
  | disk =>
    obtain ⟨x, g1, g⟩ := gives_bind g
    have g2 := gives_makeIds g
    obtain ⟨d, hd, he⟩ := gives_diskIdsWin g1
    right
    refine ⟨d, hd, ?_⟩
    show (Licensecc.generateDiskIds _ >>= fun x => if x.1 = .ok then x.2.mapM (mkId Strategy.disk.code) else Pure.pure []) = _
    rw [he]; exact g2

theorem logWin_end (l : Win.Windows) (m : Memory) (n : Nat) : ∃ n', (logWin l).run m n = (.ok (), n') ∨ (logWin l).run m n = (.ub, n') := by
  unfold logWin
  split
  · exact ⟨n, .inr rfl⟩
  · split
    · have e : ∀ f : Bool → Scarce Unit, (request >>= f).run m n = (f (m n).isNone).run m (n + 1) := fun f => rfl
      rw [e]
      cases (m n).isNone with
      | true =>
        have e' : ∀ f : Bool → Scarce Unit, (request >>= f).run m (n + 1) = (f (m (n + 1)).isNone).run m (n + 2) := fun f => rfl
        simp only [if_true]
        rw [e']
        cases (m (n + 1)).isNone with
        | true => exact ⟨n + 2, .inl rfl⟩
        | false => exact ⟨n + 2, .inr rfl⟩
      | false => exact ⟨n + 1, .inl rfl⟩
    · have e : ∀ f : Bool → Scarce Unit, (request >>= f).run m n = (f (m n).isNone).run m (n + 1) := fun f => rfl
      rw [e]
      cases (m n).isNone with
      | true => exact ⟨n + 1, .inl rfl⟩
      | false => exact ⟨n + 1, .inr rfl⟩

theorem sees_windows (l : Win.Windows) : Sees (windowsHooks l) (nearWindows l) where
  some := ⟨_, near_self l⟩
  ids _ _ _ g := gives_idsWin g
  log := logWin_end l

theorem gives_verifyHashWin {m : Memory} {b : Win.Bcrypt} {h s : Bytes} (g : Gives m (verifyHashWin b h s) true) : b.verifyHash h s = .ok true := by
  unfold Win.Bcrypt.verifyHash
  obtain ⟨blob, h1, g⟩ := gives_stepBind g
  rw [h1, Outcome.ok_bind]
  split at g
  · cases gives_plain g
  · rename_i hb
    rw [if_neg hb]
    obtain ⟨c, _, g⟩ := gives_bind g
    split at g
    · rename_i hc
      simp only [Bool.and_eq_true] at hc
      rw [if_neg (by simp [hc.2])]
      obtain ⟨x, h2, g⟩ := gives_plainBind g
      rw [h2, Outcome.ok_bind]
      obtain ⟨c, _, g⟩ := gives_bind g
      split at g
      · rename_i hc
        simp only [Bool.and_eq_true] at hc
        simp only [hc.2, Bool.true_eq_false, if_false]
        obtain ⟨c, _, g⟩ := gives_bind g
        have := gives_pure g
        simp only [Bool.and_eq_true] at this
        rw [this.2]
      · have := gives_pure g; simp at this
    · have := gives_pure g; simp at this

theorem gives_verifyWin {m : Memory} {b : Win.Bcrypt} {d s : Bytes} (g : Gives m (verifyWin b d s) true) : b.verify d s = .ok true := by
  unfold Win.Bcrypt.verify
  have no : ∀ {p : Prop}, Gives m (pure false : Scarce Bool) true → p := fun g => by have := gives_pure g; simp at this
  obtain ⟨c, _, g⟩ := gives_bind g
  split at g
  · rename_i hc
    simp only [Bool.and_eq_true] at hc
    rw [if_neg (by simp [hc.2])]
    split at g
    · rename_i hp
      rw [if_neg (by simp [hp])]
      obtain ⟨c1, _, g⟩ := gives_bind g
      obtain ⟨c2, _, g⟩ := gives_bind g
      split at g
      · rename_i hc
        simp only [Bool.and_eq_true] at hc
        rw [if_neg (by simp [hc.2])]
        obtain ⟨c3, _, g⟩ := gives_bind g
        split at g
        · rename_i hc
          simp only [Bool.and_eq_true] at hc
          rw [if_neg (by simp [hc.2])]
          obtain ⟨c4, _, g⟩ := gives_bind g
          split at g
          · cases hh : b.hash d with
            | none => rw [hh] at g; exact no g
            | some h => rw [hh] at g; exact gives_verifyHashWin g
          · exact no g
        · exact no g
      · exact no g
    · exact no g
  · cases gives_step g

/-- **C84**: on Windows too, whatever requests for memory are refused, LICENSE_OK is returned only for an offered licence text for the feature,
    within its dates and for this computer, and Windows confirmed its signature - for a beginning of the data that it covers, where the
    memory to put the rest together was refused. -/
theorem C84_windows_sound {cfg : Config} {l : Win.Windows} {caller : Option Caller} {hint : Option LicenseLocation} {out : Option LicInfo}
    {res : AcquireResult} {memory : Memory} {n n' : Nat}
    (h : (acquire cfg (windowsHooks l) caller hint out).run memory n = (.ok res, n')) (hok : res.ret = .licenseOk) :
    ∃ feature src text k, FeatureIs cfg caller feature ∧ Offers cfg l.world hint src text ∧ Complete feature text
      ∧ magicOf caller = cfg.magic ∧ Win.Spec.BeginningSigned l feature text ∧ NotExpired l.world feature text (l.clock k)
      ∧ Started l.world feature text (l.clock k) ∧ OnThisMachine l.world feature text := by
  obtain ⟨f, r, r', lics, k, oks, errs, hf, gr, gj, hne⟩ := gives_acquire (sees_windows l) ⟨n, n', h⟩ hok
  obtain ⟨_, a3⟩ := gives_readLicenses gr
  obtain ⟨_, b3⟩ := gives_judgeLoop (sees_windows l) gj
  obtain ⟨lic, hl, d, j, c1, c2, c3, c4, c5, m, c6, c7⟩ := b3 hne
  obtain ⟨src, text, d1, d2⟩ := a3 lic hl
  refine ⟨f, src, text, j, hf, d1, ⟨⟨_, d2.signature⟩, (Ini.toLong_200 _).mp d2.version⟩, ?_,
    ⟨lic.signature, lic.printForSign, d, d2.signature, signingData_of_licence d2, c1, gives_verifyWin c2⟩, ?_, ?_, ?_⟩
  · rw [← c3]; cases caller <;> simp [withMagic, magicOf, d2.magic]
  · intro x hx; exact c4 x ((d2.limits _ _).mpr hx)
  · intro x hx; exact c5 x ((d2.limits _ _).mpr hx)
  · intro x hx
    obtain ⟨i, h1, h2⟩ := c7 x ((d2.limits _ _).mpr hx)
    exact ⟨i, h1, hwMatches_extends _ _ (near_extends c6) _ h2⟩

/-- **C84**: if no beginning of the data of an offered licence has its signature unless the data has it, and no licence begins or expires
    between the two calls, nothing is accepted on Windows that would not be accepted with enough memory. -/
theorem C84_windows_no_more {cfg : Config} {l : Win.Windows} {caller : Option Caller} {hint : Option LicenseLocation} {out : Option LicInfo}
    {res res' : AcquireResult} {memory : Memory} {n n' : Nat}
    (hclock : ∀ feature src text k j, Offers cfg l.world hint src text →
      NotExpired l.world feature text (l.clock k) → Started l.world feature text (l.clock k) →
      NotExpired l.world feature text (l.clock j) ∧ Started l.world feature text (l.clock j))
    (hsign : ∀ feature src text, Offers cfg l.world hint src text → Win.Spec.BeginningSigned l feature text → Signed l.world feature text)
    (h' : Licensecc.acquire cfg l.world caller hint out = .ok res')
    (h : (acquire cfg (windowsHooks l) caller hint out).run memory n = (.ok res, n')) (hok : res.ret = .licenseOk) :
    res'.ret = .licenseOk := by
  obtain ⟨f, src, text, k, h1, h2, h3, h4, h5, h6, h7, h8⟩ := C84_windows_sound h hok
  exact C02_license_ok_complete h' h1 h2 fun j _ =>
    ⟨h3, hsign f src text h2 h5, h4, (hclock f src text k j h2 h6 h7).1, (hclock f src text k j h2 h6 h7).2, h8⟩

/-! ## identify_pc -/

theorem winDmi_no_throw (raw : Option Bytes) (e : Exn) : Win.winDmiInfo raw ≠ .throw e := by
  intro h
  apply Win.execSummary_no_throw ⟨raw, [], [], false, [], []⟩ e
  unfold Win.WinHost.execSummary Win.WinHost.mkEnv
  simp only [h, Outcome.throw_bind]

theorem noThrow_plain {α : Type} {x : Outcome α} (h : ∀ e, x ≠ .throw e) : NoThrow (plain x) := by
  intro m n n' e he
  have := congrArg Prod.fst he
  cases x with
  | ok a => cases this
  | ub => cases this
  | throw e' => exact h e' rfl

theorem noThrow_mkEnvWin (h : Win.WinHost) : NoThrow (mkEnvWin h) := by
  refine .bind noThrow_need (fun _ => .bind ?_ (fun _ => .pure _))
  refine .bind noThrow_request (fun b => ?_)
  cases b with
  | false => exact noThrow_plain (winDmi_no_throw _)
  | true =>
    simp only [if_true]
    cases h.raw with
    | none => exact noThrow_plain (winDmi_no_throw _)
    | some t =>
      refine .bind noThrow_need (fun _ => .bind noThrow_request (fun b => ?_))
      cases b with
      | false => exact noThrow_plain (winDmi_no_throw _)
      | true => exact .bind noThrow_need (fun _ => noThrow_plain (winDmi_no_throw _))

theorem gives_mkEnvWin {m : Memory} {h : Win.WinHost} {e : Env} (g : Gives m (mkEnvWin h) e) : Win.Spec.EnvLess h e := by
  replace g := gives_need g
  obtain ⟨d, g1, g⟩ := gives_bind g
  have key : Win.winDmiInfo h.raw = .ok d ∨ Win.winDmiInfo none = .ok d := by
    obtain ⟨b, _, g1⟩ := gives_bind g1
    split at g1
    · cases hr : h.raw with
      | none => rw [hr] at g1; exact .inr (gives_plain g1)
      | some t =>
        rw [hr] at g1
        replace g1 := gives_need g1
        obtain ⟨b, _, g1⟩ := gives_bind g1
        split at g1
        · exact .inl (gives_step g1)
        · exact .inr (gives_plain g1)
    · exact .inr (gives_plain g1)
  rw [← gives_pure g]
  unfold Win.Spec.EnvLess Win.WinHost.mkEnv
  rcases key with h1 | h1
  · left; rw [h1]; rfl
  · right; simp only [h1]; rfl

/-- **C84**: whatever requests for memory are refused, `identify_pc` returns on Windows - unless it crashes, or `std::bad_alloc` comes from the
    report on the execution environment -, and an identifier that it hands out is one of this computer.  The static object is not changed
    once it is there; built by this call, it lacks at most the texts of the firmware - for good. -/
theorem C84_windows_identify {l : Win.Windows} {cache : Option Env} {strategy : Int} {buf : Option Bytes} {size : Nat} {info : Bool}
    {memory : Memory} {n n' : Nat} {e : End (IdentifyResult × Option EnvInfo × Option Env)} (hbuf : ∀ mem, buf = some mem → size ≤ mem.length)
    (h : (identify (windowsHooks l) cache strategy buf size info).run memory n = (e, n')) :
    e = .ub ∨ (e = .noMemory ∧ (cache = none ∨ info = true)) ∨ ∃ r i env, e = .ok (r, i, some env)
      ∧ ((r.ret = false ∧ r.buf = buf) ∨ ∃ text rest, r = ⟨true, size, some (text ++ 0 :: rest)⟩ ∧ text.length = 14 ∧ 0 ∉ text
          ∧ Licensecc.validatePcSignature l.world.machine text = .ok .licenseOk)
      ∧ (cache = some env ∨ (cache = none ∧ Win.Spec.EnvLess l.host env))
      ∧ i = (if info then some ⟨cloudProvider env, virtualization l.host.common env, virtualizationDetail l.host.common env⟩ else none) := by
  rcases identify_end (sees_windows l) (EnvP := Win.Spec.EnvLess l.host) (fun _ _ => gives_mkEnvWin) (noThrow_mkEnvWin _) hbuf h with
    h | h | ⟨r, i, env, h1, h2, h3⟩
  · exact .inl h
  · exact .inr (.inl h)
  · refine .inr (.inr ⟨r, i, env, h1, h2.imp id ?_, h3⟩)
    rintro ⟨text, rest, d, a1, a2, a3, a4, a5⟩
    obtain ⟨x, b1, b2⟩ := (C27_validate_iff _ _).mp a5
    exact ⟨text, rest, a1, a2, a3, (C27_validate_iff _ _).mpr ⟨x, b1, hwMatches_extends _ _ (near_extends a4) _ b2⟩⟩

/-! ## Cases -/

/-- With enough memory the sample licence is accepted; so it is if the first drive is overlooked. -/
theorem C84_windows_sample_accepted :
    returned ((acquire sampleConfig (windowsHooks Win.sampleWindows) (some sampleCaller) none none).run enough 0) = some .licenseOk
      ∧ returned ((acquire sampleConfig (windowsHooks Win.sampleWindows) (some sampleCaller) none none).run (refuseOnly 27 0) 0)
        = some .licenseOk := by
  decide +kernel

/-- A genuine licence is refused as corrupted, as missing, or as one for other hardware, if a single request is refused at the wrong moment. -/
theorem C84_windows_genuine_refused :
    returned ((acquire sampleConfig (windowsHooks Win.sampleWindows) (some sampleCaller) none none).run (refuseOnly 12 0) 0) = some .corrupted
      ∧ returned ((acquire sampleConfig (windowsHooks Win.sampleWindows) (some sampleCaller) none none).run (refuseOnly 3 0) 0)
        = some .fileNotFound
      ∧ returned ((acquire sampleConfig (windowsHooks Win.sampleWindows) (some sampleCaller) none none).run (refuseOnly 29 0) 0)
        = some .identifiersMismatch := by
  decide +kernel

/-- Ended with this exception. -/
def threw {α : Type} (x : End α × Nat) : Option Exn :=
  match x.1 with
  | .throw e => some e
  | _ => none

/-- The caller gets `std::bad_alloc`, or `std::logic_error` because the hash provider could not be opened. -/
theorem C84_windows_exception :
    exhausted ((acquire sampleConfig (windowsHooks Win.sampleWindows) (some sampleCaller) none none).run (refuseOnly 16 0) 0) = true
      ∧ threw ((acquire sampleConfig (windowsHooks Win.sampleWindows) (some sampleCaller) none none).run (refuseOnly 11 0) 0)
        = some .logicError := by
  decide +kernel

/-- `identify_pc` crashes with the network strategy, if `GetAdaptersInfo` is refused memory. -/
theorem C84_windows_crash :
    crashed ((identify (windowsHooks Win.sampleWindows) none 0 (some (List.replicate 20 0)) 20 false).run (refuseOnly 2 0) 0) = true
      ∧ crashed ((identify (windowsHooks Win.sampleWindows) none 0 (some (List.replicate 20 0)) 20 false).run enough 0) = false := by
  decide +kernel

/-- A computer that confirms the signature in the licence for the first five bytes of the data only. -/
def prefixWindows : Win.Windows :=
  { Win.sampleWindows with crypt := { Win.sampleWindows.crypt with hash := fun d => if d = boundData.take 5 then some (b!"ABC") else some [] } }

/-- **C84**: the signature of a beginning is enough on Windows too.  The hypotheses of `C84_windows_sound` are met. -/
theorem C84_windows_prefix_accepted :
    returned ((acquire sampleConfig (windowsHooks prefixWindows) (some sampleCaller) none none).run enough 0) = some .corrupted
      ∧ returned ((acquire sampleConfig (windowsHooks prefixWindows) (some sampleCaller) none none).run (refuseOnly 10 5) 0)
        = some .licenseOk := by
  decide +kernel

/-- The maker of the firmware in the static object after `identify_pc`. -/
def vendorAfter (cache : Option Env) (memory : Memory) : Option Bytes :=
  (told ((identify (windowsHooks Win.sampleWindows) cache (-1) none 0 true).run memory 0)).2.map (·.dmi.biosVendor)

/-- **C84**: the firmware's texts missed by the first call are missed by all later ones, however much memory they have. -/
theorem C84_windows_missed_for_good :
    (vendorAfter none enough).map (·.isEmpty) = some false ∧ vendorAfter none (refuseOnly 1 0) = some []
      ∧ vendorAfter (told ((identify (windowsHooks Win.sampleWindows) none (-1) none 0 true).run (refuseOnly 1 0) 0)).2 enough = some [] := by
  decide +kernel

end Licensecc.Scarce
