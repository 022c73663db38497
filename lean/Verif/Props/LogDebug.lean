import Verif.Spec.LogDebug
import Verif.Props.LogTextWin
/-!
# C87: the messages of debug builds
-/
namespace Licensecc.LogDebug
open Licensecc Licensecc.Spec LogText

theorem printf_plain {pre f : Bytes} (hp : 37 ∉ pre) (as : List Arg) :
    printf (pre ++ f) as = (do return pre ++ (← printf f as)) := by
  induction pre with
  | nil =>
    rw [List.nil_append]
    cases printf f as <;> rfl
  | cons c pre ih =>
    have hc : c ≠ 37 := fun h => hp (by simp [h])
    have hp' : 37 ∉ pre := fun h => hp (by simp [h])
    rw [List.cons_append, printf, if_neg hc, ih hp']
    · cases printf f as <;> simp
    all_goals (intros; contradiction)

theorem printf_pre {pre f : Bytes} {as : List Arg} {t : Bytes} (hp : 37 ∉ pre) (h : printf f as = .ok t) :
    printf (pre ++ f) as = .ok (pre ++ t) := by
  rw [printf_plain hp, h]; rfl

theorem printf_text {f : Bytes} (hp : 37 ∉ f) (as : List Arg) : printf f as = .ok f := by
  have := printf_pre (f := []) (as := as) hp (t := []) (by cases as <;> simp [printf])
  simpa using this

theorem printf_str {f s : Bytes} {as : List Arg} {t : Bytes} (h : printf f as = .ok t) :
    printf (37 :: 115 :: f) (.str s :: as) = .ok (upToNul s ++ t) := by
  rw [printf, h]; rfl

theorem str_eq (f s : Bytes) (as : List Arg) :
    printf (37 :: 115 :: f) (.str s :: as) = (do return upToNul s ++ (← printf f as)) := by rw [printf]; rfl

theorem int_eq (f : Bytes) (n : Int) (as : List Arg) :
    printf (37 :: 100 :: f) (.int n :: as) = (do return decimal n ++ (← printf f as)) := by rw [printf]

theorem printf_int {f : Bytes} {n : Int} {as : List Arg} {t : Bytes} (h : printf f as = .ok t) :
    printf (37 :: 100 :: f) (.int n :: as) = .ok (decimal n ++ t) := by
  rw [printf, h]; rfl

theorem printf_hex {f : Bytes} {n : Nat} {as : List Arg} {t : Bytes} (h : printf f as = .ok t) :
    printf (37 :: 120 :: f) (.uint n :: as) = .ok (Inspector.number 16 n ++ t) := by
  rw [printf, h]; rfl

theorem printf_two {f : Bytes} {n : Nat} {as : List Arg} {t : Bytes} (h : printf f as = .ok t) :
    printf (37 :: 48 :: 50 :: 120 :: f) (.uint n :: as)
      = .ok (List.replicate (2 - (Inspector.number 16 n).length) 48 ++ Inspector.number 16 n ++ t) := by
  rw [printf, h]; rfl

theorem printf_column {f s : Bytes} {as : List Arg} {t : Bytes} (h : printf f as = .ok t) :
    printf (37 :: 45 :: 56 :: 115 :: f) (.str s :: as)
      = .ok (upToNul s ++ List.replicate (8 - (upToNul s).length) 32 ++ t) := by
  rw [printf, h]; rfl

theorem twoDigits : ∀ b : UInt8,
    TwoDigits b (List.replicate (2 - (Inspector.number 16 b.toNat).length) 48 ++ Inspector.number 16 b.toNat) := by
  have : ∀ n : Fin 256, (fun t : Bytes => t.length = 2 ∧ t ≠ [] ∧ (∀ c ∈ t, (48 ≤ c.toNat ∧ c.toNat ≤ 57 ∨ 97 ≤ c.toNat ∧ c.toNat ≤ 102) ∧ digitValue c < 16)
      ∧ t.foldl (fun v c => v * 16 + digitValue c) 0 = n.val)
      (List.replicate (2 - (Inspector.number 16 n.val).length) 48 ++ Inspector.number 16 n.val) := by
    decide +kernel
  intro b
  exact this ⟨b.toNat, b.toNat_lt⟩

theorem number_head {n : Nat} (hn : n ≠ 0) : (Inspector.number 16 n).head? ≠ some 48 := by
  have key : ∀ fuel n, n < fuel → n ≠ 0 → ∃ d, d ≠ 48 ∧ (Inspector.digitsRev 16 fuel n).getLast? = some d := by
    intro fuel
    induction fuel with
    | zero => intro n h; omega
    | succ fuel ih =>
      intro n h hn
      unfold Inspector.digitsRev
      by_cases hb : n < 16
      · rw [if_pos hb]
        refine ⟨Inspector.digit n, ?_, rfl⟩
        have : ∀ d, d < 16 → d ≠ 0 → Inspector.digit d ≠ 48 := by decide
        exact this n hb hn
      · rw [if_neg hb]
        obtain ⟨d, h1, h2⟩ := ih (n / 16) (by omega) (by omega)
        refine ⟨d, h1, ?_⟩
        rw [List.getLast?_cons, h2]; rfl
  obtain ⟨d, h1, h2⟩ := key (n + 1) n (by omega) hn
  unfold Inspector.number
  rw [List.head?_reverse, h2]
  simpa using h1

theorem hexText (n : Nat) : HexText n (Inspector.number 16 n) :=
  ⟨Inspector.C70_number (by omega) (by omega) n, number_head⟩

theorem family_named (k : Nat) : FamilyNamed k (familyName k) := by
  unfold familyName
  split
  · subst_vars; exact .packet
  · split
    · subst_vars; exact .inet
    · split
      · subst_vars; exact .inet6
      · exact .other (by simp [*])

theorem family_whole (k : Nat) : upToNul (familyName k) = familyName k := by
  unfold familyName
  split
  · decide
  · split
    · decide
    · split <;> decide

theorem own_printed {m : Message} (hm : ¬ Malformed m) : ∃ file line msg, DebugText m file line msg ∧ m.place = (file, line.toNat)
    ∧ 0 ≤ line ∧ printf (m.own ++ b!"\n") m.ownArgs = .ok (msg ++ b!"\n") := by
  have fin : ∀ as, printf (b!"\n") as = .ok (b!"\n") := fun as => printf_text (by decide) as
  have plain : ∀ t : Bytes, 37 ∉ t → printf (t ++ b!"\n") [] = .ok (t ++ b!"\n") := fun t ht =>
    printf_pre ht (fin [])
  cases m with
  | status a =>
    refine ⟨_, _, _, .status a, rfl, by decide, ?_⟩
    have := printf_pre (pre := b!"License status ") (by decide) (printf_str (s := a) (fin []))
    simp only [List.append_assoc] at this ⊢; exact this
  | interface n k =>
    refine ⟨_, _, _, .interface ⟨_, rfl, rfl⟩ (family_named k) (decimal_text _), rfl, by decide, ?_⟩
    have := printf_column (s := n) (printf_pre (pre := b!" ") (by decide) (printf_str (s := familyName k) (printf_pre (pre := b!" (") (by decide) (printf_int (n := k) (printf_pre (pre := b!")\n") (by decide) (fin []))))))
    rw [family_whole] at this
    simp only [List.append_assoc] at this ⊢; exact this
  | macByte b =>
    refine ⟨_, _, _, .macByte (twoDigits b), rfl, by decide, ?_⟩
    have := printf_two (n := b.toNat) (printf_pre (pre := b!":") (by decide) (fin []))
    simp only [List.append_assoc] at this ⊢; exact this
  | interfaceEnd n =>
    refine ⟨_, _, _, .interfaceEnd n, rfl, by decide, ?_⟩
    have := printf_pre (pre := b!"\t ") (by decide) (printf_str (s := n) (printf_pre (pre := b!"\n") (by decide) (fin [])))
    simp only [List.append_assoc] at this ⊢; exact this
  | labelSet i d l =>
    refine ⟨_, _, _, .labelSet d l (decimal_text i), rfl, by decide, ?_⟩
    have := printf_pre (pre := b!"Label for disk ino ") (by decide) (printf_int (n := i) (printf_pre (pre := b!" device ") (by decide) (printf_str (s := d) (printf_pre (pre := b!", set to ") (by decide) (printf_str (s := l) (fin []))))))
    simp only [List.append_assoc] at this ⊢; exact this
  | labelStat p e =>
    refine ⟨_, _, _, .labelStat p e, rfl, by decide, ?_⟩
    have := printf_pre (pre := b!"Stat ") (by decide) (printf_str (s := p) (printf_pre (pre := b!" for fail:F ") (by decide) (printf_str (s := e) (fin []))))
    simp only [List.append_assoc] at this ⊢; exact this
  | labelOpen d e =>
    refine ⟨_, _, _, .labelOpen d e, rfl, by decide, ?_⟩
    have := printf_pre (pre := b!"Open ") (by decide) (printf_str (s := d) (printf_pre (pre := b!" for reading disk labels fail: ") (by decide) (printf_str (s := e) (fin []))))
    simp only [List.append_assoc] at this ⊢; exact this
  | uuidOpen e =>
    refine ⟨_, _, _, .uuidOpen e, rfl, by decide, ?_⟩
    have := printf_pre (pre := b!"Open /dev/disk/by-uuid fail: ") (by decide) (printf_str (s := e) (fin []))
    simp only [List.append_assoc] at this ⊢; exact this
  | diskFound i d s =>
    refine ⟨_, _, _, .diskFound d s (decimal_text i), rfl, by decide, ?_⟩
    have := printf_pre (pre := b!"Found disk inode ") (by decide) (printf_int (n := i) (printf_pre (pre := b!" device ") (by decide) (printf_str (s := d) (printf_pre (pre := b!", sn ") (by decide) (printf_str (s := s) (fin []))))))
    simp only [List.append_assoc] at this ⊢; exact this
  | readlink e p =>
    refine ⟨_, _, _, .readlink e p, rfl, by decide, ?_⟩
    have := printf_pre (pre := b!"Error ") (by decide) (printf_str (s := e) (printf_pre (pre := b!" during readlink of ") (by decide) (printf_str (s := p) (fin []))))
    simp only [List.append_assoc] at this ⊢; exact this
  | uuidStat e p =>
    refine ⟨_, _, _, .uuidStat e p, rfl, by decide, ?_⟩
    have := printf_pre (pre := b!"Error ") (by decide) (printf_str (s := e) (printf_pre (pre := b!" during stat of ") (by decide) (printf_str (s := p) (fin []))))
    simp only [List.append_assoc] at this ⊢; exact this
  | fstab => exact ⟨_, _, _, .fstab, rfl, by decide, plain _ (by decide)⟩
  | fstabEntry n =>
    refine ⟨_, _, _, .fstabEntry n, rfl, by decide, ?_⟩
    have := printf_pre (pre := b!"found fstab entry ") (by decide) (printf_str (s := n) (printf_pre (pre := b!" ") (by decide) (fin [])))
    simp only [List.append_assoc] at this ⊢; exact this
  | preferredUuid i d =>
    refine ⟨_, _, _, .preferredUuid d (decimal_text i), rfl, by decide, ?_⟩
    have := printf_pre (pre := b!"Disk ") (by decide) (printf_int (n := i) (printf_pre (pre := b!" device ") (by decide) (printf_str (s := d) (printf_pre (pre := b!" set as preferred") (by decide) (fin [])))))
    simp only [List.append_assoc] at this ⊢; exact this
  | preferredLabel i d =>
    refine ⟨_, _, _, .preferredLabel d (decimal_text i), rfl, by decide, ?_⟩
    have := printf_pre (pre := b!"Disk ") (by decide) (printf_int (n := i) (printf_pre (pre := b!" device ") (by decide) (printf_str (s := d) (printf_pre (pre := b!" set as preferred") (by decide) (fin [])))))
    simp only [List.append_assoc] at this ⊢; exact this
  | preferredDevice i d =>
    refine ⟨_, _, _, .preferredDevice d (decimal_text i), rfl, by decide, ?_⟩
    have := printf_pre (pre := b!"Disk ") (by decide) (printf_int (n := i) (printf_pre (pre := b!" device ") (by decide) (printf_str (s := d) (printf_pre (pre := b!" set as preferred") (by decide) (fin [])))))
    simp only [List.append_assoc] at this ⊢; exact this
  | fstabNoDisk n =>
    refine ⟨_, _, _, .fstabNoDisk n, rfl, by decide, ?_⟩
    have := printf_pre (pre := b!"fstab device ") (by decide) (printf_str (s := n) (printf_pre (pre := b!" found, but no corresponding diskInfo") (by decide) (fin [])))
    simp only [List.append_assoc] at this ⊢; exact this
  | biosVendor w =>
    refine ⟨_, _, _, .biosVendor w, rfl, by decide, ?_⟩
    have := printf_pre (pre := b!"Can not read sys_vendor ") (by decide) (printf_str (s := w) (fin []))
    simp only [List.append_assoc] at this ⊢; exact this
  | modalias w =>
    refine ⟨_, _, _, .modalias w, rfl, by decide, ?_⟩
    have := printf_pre (pre := b!"Can not read bios_description ") (by decide) (printf_str (s := w) (fin []))
    simp only [List.append_assoc] at this ⊢; exact this
  | sysVendor w =>
    refine ⟨_, _, _, .sysVendor w, rfl, by decide, ?_⟩
    have := printf_pre (pre := b!"Can not read bios_description ") (by decide) (printf_str (s := w) (fin []))
    simp only [List.append_assoc] at this ⊢; exact this
  | formatError d t s => exact absurd (.formatError d t s) hm
  | noKey => exact ⟨_, _, _, .noKey, rfl, by decide, plain _ (by decide)⟩
  | noMemory => exact ⟨_, _, _, .noMemory, rfl, by decide, plain _ (by decide)⟩
  | noDrive => exact ⟨_, _, _, .noDrive, rfl, by decide, plain _ (by decide)⟩
  | ethernet n d k =>
    refine ⟨_, _, _, .ethernet n d (decimal_text _), rfl, by decide, ?_⟩
    have := printf_pre (pre := b!"Ethernet found ") (by decide) (printf_str (s := n) (printf_pre (pre := b!", ") (by decide) (printf_str (s := d) (printf_pre (pre := b!", mac_l: ") (by decide) (printf_int (n := k) (fin []))))))
    simp only [List.append_assoc] at this ⊢; exact this
  | drive r v k f =>
    refine ⟨_, _, _, .drive r v f (hexText k), rfl, by decide, ?_⟩
    have := printf_pre (pre := b!"drive: ") (by decide) (printf_str (s := r) (printf_pre (pre := b!",volume Name: ") (by decide) (printf_str (s := v) (printf_pre (pre := b!", Volume Serial: 0x") (by decide) (printf_hex (n := k) (printf_pre (pre := b!",Filesystem: ") (by decide) (printf_str (s := f) (fin []))))))))
    simp only [List.append_assoc] at this ⊢; exact this
  | unreadable r =>
    refine ⟨_, _, _, .unreadable r, rfl, by decide, ?_⟩
    have := printf_pre (pre := b!"Unable to retrieve information of '") (by decide) (printf_str (s := r) (printf_pre (pre := b!"'") (by decide) (fin [])))
    simp only [List.append_assoc] at this ⊢; exact this
  | notFixed r => exact absurd (.notFixed r) hm

theorem written_eq (dir now : Bytes) (m : Message) (hn : 37 ∉ now) (hl : now.length ≤ 63) : m.written dir now
    = (do
      let t ← printf (m.own ++ b!"\n") m.ownArgs
      return now ++ b!"[DEBUG] (" ++ upToNul (dir ++ m.place.1) ++ b!":" ++ decimal m.place.2 ++ b!") " ++ t) := by
  unfold Message.written
  rw [if_pos (by omega)]
  generalize hr : m.own ++ b!"\n" = r
  have hfmt : m.format = b!"[DEBUG] (" ++ (37 :: 115 :: (b!":" ++ (37 :: 100 :: (b!") " ++ r)))) := by
    unfold Message.format
    rw [← hr]
    simp
  have hargs : m.args dir = .str (dir ++ m.place.1) :: .int m.place.2 :: m.ownArgs := rfl
  rw [hfmt, hargs, printf_plain hn, printf_plain (pre := b!"[DEBUG] (") (by decide), str_eq, printf_plain (pre := b!":") (by decide), int_eq,
    printf_plain (pre := b!") ") (by decide)]
  cases printf r m.ownArgs <;> simp

/-- **C87**: what `vfprintf` writes for a message is the line described, whatever the texts in it are; and for two of them the
    arguments are not those of the format, so that nothing is said about what happens. -/
theorem C87_text (dir now : Bytes) (m : Message) (hn : 37 ∉ now) (hl : now.length ≤ 63) :
    (¬ Malformed m ∧ ∃ t, m.written dir now = .ok t ∧ DebugLine dir now m t) ∨ (Malformed m ∧ m.written dir now = .ub) := by
  by_cases hm : Malformed m
  · refine .inr ⟨hm, ?_⟩
    rw [written_eq dir now m hn hl]
    have : printf (m.own ++ b!"\n") m.ownArgs = .ub := by
      cases hm with
      | formatError d t s =>
        show printf (b!"error " ++ (37 :: 115 :: (b!" : " ++ (37 :: 115 :: (b!" " ++ b!"%h\n"))))) [.str d, .str t, .int s] = .ub
        rw [printf_plain (by decide), str_eq, printf_plain (by decide), str_eq, printf_plain (by decide)]
        simp [printf]
      | notFixed r =>
        show printf (b!"This volume is not fixed : " ++ (37 :: 115 :: (b!", type: " ++ b!"%d\n"))) [.str r] = .ub
        rw [printf_plain (by decide), str_eq, printf_plain (by decide)]
        simp [printf]
    rw [this]; rfl
  · refine .inl ⟨hm, ?_⟩
    obtain ⟨file, line, msg, h1, h2, h3, h4⟩ := own_printed hm
    rw [written_eq dir now m hn hl, h4, h2]
    have : ((line.toNat : Nat) : Int) = line := by omega
    exact ⟨_, rfl, by simpa [this, List.append_assoc] using DebugLine.mk (dir := dir) (now := now) h1 (decimal_text line)⟩

end Licensecc.LogDebug
