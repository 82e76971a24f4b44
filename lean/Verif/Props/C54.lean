import Verif.Lemmas.Expand
import Verif.Model.OsStream
import Verif.Spec.Files
import Verif.Props.C39
import Verif.Lemmas.ReplaceI
/-
C54: the names of files.
-/
namespace PBat
open Spec

/-! ### Numbers read by `strtol` -/

theorem digitVal_dec {c : Char} (h : digitVal c < 10) : c ∈ "0123456789".toList := by
  have hb : '0' ≤ c ∧ c ≤ '9' := by
    unfold digitVal at h
    split at h
    · assumption
    · repeat' split at h
      all_goals omega
  have h1 : 48 ≤ c.toNat := hb.1
  have h2 : c.toNat ≤ 57 := hb.2
  have key : ∀ n : Fin 58, 48 ≤ n.val → Char.ofNat n ∈ "0123456789".toList := by decide
  have := key ⟨c.toNat, by omega⟩ h1
  simpa using this

theorem scanBase_split (s : List Char) : ∃ ds x, s = ds ++ x ∧ (∀ d ∈ ds, d ∈ "0123456789".toList) ∧ (∀ c, x.head? = some c → ¬ digitVal c < 10) ∧
    scanBase 10 0 s = (valueIn 10 ds, x) := by
  have hs : ∀ s : List Char, ∃ ds x, s = ds ++ x ∧ (∀ d ∈ ds, digitVal d < 10) ∧ ∀ c, x.head? = some c → ¬ digitVal c < 10 := by
    intro s
    induction s with
    | nil => exact ⟨[], [], rfl, by simp, by simp⟩
    | cons c s ih =>
      by_cases hc : digitVal c < 10
      · obtain ⟨ds, x, h1, h2, h3⟩ := ih
        refine ⟨c :: ds, x, by rw [h1]; rfl, ?_, h3⟩
        intro d hd
        rcases List.mem_cons.1 hd with rfl | hd
        · exact hc
        · exact h2 d hd
      · exact ⟨[], c :: s, rfl, by simp, by simpa using hc⟩
  obtain ⟨ds, x, rfl, h2, h3⟩ := hs s
  refine ⟨ds, x, rfl, fun d hd => digitVal_dec (h2 d hd), h3, ?_⟩
  rw [scanBase_all ds h2 x (fun c hc => by have := h3 c hc; omega),
    foldl_congr_digits ds (fun c hc => (digit_dec c (digitVal_dec (h2 c hc))).2)]
  rfl

theorem mem_spaces {s : List Char} : ∀ c ∈ s.takeWhile isSpace, isSpace c = true := by
  induction s with
  | nil => simp
  | cons d s ih =>
    intro c hc
    rw [List.takeWhile_cons] at hc
    split at hc
    · rcases List.mem_cons.1 hc with rfl | hc
      · assumption
      · exact ih c hc
    · cases hc

/-- The digits after an optional sign. -/
theorem digits_cases (s : List Char) :
    ((scanBase 10 0 s).1 = 0 ∧ ∀ d r, s = d :: r → ¬ digitVal d < 10) ∨
    ∃ ds x, ds ≠ [] ∧ s = ds ++ x ∧ (∀ d ∈ ds, d ∈ "0123456789".toList) ∧ scanBase 10 0 s = (valueIn 10 ds, x) ∧ ∀ d r, s = d :: r → digitVal d < 10 := by
  obtain ⟨ds, x, h1, h2, h3, h4⟩ := scanBase_split s
  cases ds with
  | nil =>
    left
    refine ⟨by rw [h4]; rfl, ?_⟩
    rintro d r rfl
    exact h3 d (by rw [← h1.trans (List.nil_append x)]; rfl)
  | cons c ds =>
    right
    refine ⟨c :: ds, x, by simp, h1, h2, h4, ?_⟩
    rintro d r rfl
    cases h1
    exact (digit_dec _ (h2 _ (by simp))).1

/-- What `strtol` finds: no number, or a number after blanks. -/
theorem strtol10_cases (s : List Char) :
    strtol10 s = 0 ∧ strtol10Rest s = s ∨
    ∃ w t v x, s = w ++ (t ++ x) ∧ (∀ c ∈ w, isSpace c = true) ∧ DecInt t v ∧ strtol10 s = v ∧ strtol10Rest s = x := by
  have hw : s = s.takeWhile isSpace ++ s.dropWhile isSpace := (List.takeWhile_append_dropWhile).symm
  have hsp := mem_spaces (s := s)
  unfold strtol10 strtol10Rest
  simp only
  generalize s.dropWhile isSpace = r at *
  generalize s.takeWhile isSpace = w at *
  split
  · next ds =>
    simp only [List.head?_cons, true_or, if_true, List.drop_succ_cons, List.drop_zero]
    rcases digits_cases ds with ⟨h1, h2⟩ | ⟨d, x, h1, h2, h3, h4, h5⟩
    · left
      refine ⟨by rw [h1]; rfl, ?_⟩
      split
      · rfl
      · next d r => rw [if_neg (h2 d r rfl)]
    · right
      refine ⟨w, '-' :: d, -(valueIn 10 d : Int), x, by rw [hw, h2]; rfl, hsp, .minus h1 h3, by rw [h4], ?_⟩
      split
      · exact absurd h2.symm (by simp [h1])
      · next d' r => rw [if_pos (h5 d' r rfl), h4]
  · next ds =>
    simp only [List.head?_cons, or_true, if_true, List.drop_succ_cons, List.drop_zero]
    rcases digits_cases ds with ⟨h1, h2⟩ | ⟨d, x, h1, h2, h3, h4, h5⟩
    · left
      refine ⟨by rw [h1]; rfl, ?_⟩
      split
      · rfl
      · next d r => rw [if_neg (h2 d r rfl)]
    · right
      refine ⟨w, '+' :: d, (valueIn 10 d : Int), x, by rw [hw, h2]; rfl, hsp, .plus h1 h3, by rw [h4], ?_⟩
      split
      · exact absurd h2.symm (by simp [h1])
      · next d' r => rw [if_pos (h5 d' r rfl), h4]
  · next _ hn hp =>
    have hh : ¬ (r.head? = some '-' ∨ r.head? = some '+') := by
      cases r with
      | nil => simp
      | cons c r =>
        simp only [List.head?_cons, Option.some.injEq]
        rintro (rfl | rfl)
        · exact hn r rfl
        · exact hp r rfl
    rw [if_neg hh]
    rcases digits_cases r with ⟨h1, h2⟩ | ⟨d, x, h1, h2, h3, h4, h5⟩
    · left
      refine ⟨by rw [h1]; rfl, ?_⟩
      split
      · rfl
      · next d r => rw [if_neg (h2 d r rfl)]
    · right
      refine ⟨w, d, (valueIn 10 d : Int), x, by rw [hw, h2], hsp, .plain h1 h3, by rw [h4], ?_⟩
      split
      · exact absurd h2.symm (by simp [h1])
      · next d' r => rw [if_pos (h5 d' r rfl), h4]

/-- Numbers with nothing after them are read. -/
theorem strtol10_number {w t : List Char} {v : Int} (hw : ∀ c ∈ w, isSpace c = true) (ht : DecInt t v) :
    strtol10 (w ++ t) = v ∧ strtol10Rest (w ++ t) = [] := by
  have hd : ∀ {a : List Char} (c r), a = c :: r → isSpace c = false → (w ++ a).dropWhile isSpace = a := by
    rintro a c r rfl hc
    rw [List.dropWhile_append_of_pos hw, List.dropWhile_cons, hc]
    rfl
  have hscan : ∀ {ds : List Char}, ds ≠ [] → (∀ d ∈ ds, d ∈ "0123456789".toList) → scanBase 10 0 ds = (valueIn 10 ds, []) := by
    intro ds h1 h2
    obtain ⟨d, x, h3, h4, h5, h6⟩ := scanBase_split ds
    cases x with
    | nil => rw [List.append_nil] at h3; rw [h6, h3]
    | cons c x => exact absurd (digit_dec c (h2 c (by rw [h3]; simp))).1 (h5 c rfl)
  unfold strtol10 strtol10Rest
  cases ht with
  | @plain ds h1 h2 =>
    obtain ⟨c, r, rfl⟩ := List.exists_cons_of_ne_nil h1
    obtain ⟨h3, h4, h5⟩ := digit_plain c (h2 c (by simp))
    rw [hd c r rfl h3]
    simp only [List.head?_cons, Option.some.injEq, h4, h5, or_self, if_false, if_pos (digit_dec c (h2 c (by simp))).1, hscan h1 h2, and_true]
    split
    · next h => exact absurd (List.cons.inj h).1 h4
    · next h => exact absurd (List.cons.inj h).1 h5
    · rw [hscan h1 h2]
  | @plus ds h1 h2 =>
    rw [hd '+' ds rfl (by decide)]
    obtain ⟨c, r, rfl⟩ := List.exists_cons_of_ne_nil h1
    simp only [List.head?_cons, or_true, if_true, List.drop_succ_cons, List.drop_zero, if_pos (digit_dec c (h2 c (by simp))).1, hscan h1 h2,
      and_true]
  | @minus ds h1 h2 =>
    rw [hd '-' ds rfl (by decide)]
    obtain ⟨c, r, rfl⟩ := List.exists_cons_of_ne_nil h1
    simp only [List.head?_cons, true_or, if_true, List.drop_succ_cons, List.drop_zero, if_pos (digit_dec c (h2 c (by simp))).1, hscan h1 h2,
      and_true]

/-! ### Devices -/

theorem osPort_number {w t : List Char} {v : Int} (hw : ∀ c ∈ w, isSpace c = true) (ht : DecInt t v) (dev : List Char) (h1 : -2 ^ 63 < v)
    (h2 : v < 2 ^ 63) (h3 : (v - 1) % 2 ^ 32 ≤ 10) : osPort dev (w ++ t) = .ok (some (dev ++ (toString ((v - 1) % 2 ^ 32).toNat).toList)) := by
  obtain ⟨e1, e2⟩ := strtol10_number hw ht
  unfold osPort
  have e3 : min (2 ^ 63 - 1) v = v := by omega
  rw [e1, e2, if_neg (by omega), e3]
  have e4 : longToInt (v - 1) = (v - 1) % 2 ^ 32 := by
    unfold longToInt toInt32
    simp only
    split <;> omega
  simp only [e4]
  rw [if_pos ⟨trivial, by omega, h3⟩]
  unfold intText
  rw [if_neg (by omega), natText_toString]

theorem lower_digit {c : Char} (h : c.toLower ∈ "0123456789".toList) : c = c.toLower := by
  by_cases hc : c.toLower = c
  · exact hc.symm
  · exfalso
    have hu : 'A'.toNat ≤ c.toNat ∧ c.toNat ≤ 'Z'.toNat := by
      unfold Char.toLower at hc
      split at hc
      · next hh => exact ⟨hh.1, hh.2⟩
      · exact absurd rfl hc
    have key : ∀ n : Fin 91, 65 ≤ n.val → (Char.ofNat n).toLower ∉ "0123456789".toList := by decide
    have h1 : 65 ≤ c.toNat := hu.1
    have h2 : c.toNat ≤ 90 := hu.2
    have := key ⟨c.toNat, by omega⟩ h1
    simp only [Char.ofNat_toNat] at this
    exact this h

theorem fold_digits {r ds : List Char} (h : ∀ d ∈ ds, d ∈ "0123456789".toList) (he : r.map Char.toLower = ds) : r = ds := by
  subst he
  induction r with
  | nil => rfl
  | cons c r ih =>
    rw [List.map_cons, ← lower_digit (h c.toLower (by simp)), ← ih fun d hd => h d (by rw [List.map_cons]; exact List.mem_cons_of_mem _ hd)]

theorem fold_split {p k r : List Char} (h : p.map Char.toLower = k ++ r) : ∃ k' r', p = k' ++ r' ∧ k'.map Char.toLower = k ∧ r'.map Char.toLower = r := by
  refine ⟨p.take k.length, p.drop k.length, (List.take_append_drop _ _).symm, ?_, ?_⟩
  · rw [List.map_take, h, List.take_left]
  · rw [List.map_drop, h, List.drop_left]

theorem small_number : ∀ i : Fin 11, (toString (i.val + 1)).toList ≠ [] ∧ (∀ d ∈ (toString (i.val + 1)).toList, d ∈ "0123456789".toList) ∧
    valueIn 10 (toString (i.val + 1)).toList = i.val + 1 := by decide

theorem osPort_small (i : Nat) (hi : i < 11) (dev : List Char) :
    osPort dev (toString (i + 1)).toList = .ok (some (dev ++ (toString i).toList)) := by
  obtain ⟨h1, h2, h3⟩ := small_number ⟨i, hi⟩
  simp only at h1 h2 h3
  have := osPort_number (w := []) (by simp) (DecInt.plain h1 h2) dev (by rw [h3]; omega) (by rw [h3]; omega) (by rw [h3]; omega)
  rw [h3, List.nil_append] at this
  have e : ((((i + 1 : Nat) : Int) - 1) % 2 ^ 32).toNat = i := by omega
  rw [this, e]

theorem prefixI_port {k r : List Char} {a : List Char} (h : k.map Char.toLower = a.map Char.toLower) : prefixI a (k ++ r) = true := by
  rw [prefixI_iff, List.map_append, h]
  exact List.prefix_append _ _

theorem fold_three {k r n : List Char} {a : List Char} (hk : fold k = a) (ha : a.length = n.length) (h : fold (k ++ r) = n) : a = n := by
  have h1 : fold k ++ fold r = n := by rw [← h]; simp [fold]
  have h2 : (fold k ++ fold r).take (fold k).length = n.take (fold k).length := by rw [h1]
  rw [List.take_left, hk, ha, List.take_length] at h2
  exact h2

theorem osStream_lpt {k : List Char} (hk : fold k = "lpt".toList) (r : List Char) :
    osStream (k ++ r) = (osPort "/dev/lpt".toList r >>= fun o => .ok (o.getD (k ++ r))) := by
  have hl : k.length = 3 := by have := congrArg List.length hk; simpa [fold] using this
  unfold osStream
  simp only [stricmp_zero]
  rw [if_neg (fun hc => absurd (fold_three hk (by decide) hc) (by decide)), if_neg (fun hc => absurd (fold_three hk (by decide) hc) (by decide)),
    if_neg (fun hc => absurd (fold_three hk (by decide) hc) (by decide)), if_pos (prefixI_port (hk.trans (by decide))), if_neg]
  · rw [← hl, List.drop_left]
    cases osPort "/dev/lpt".toList r with
    | ok o => cases o <;> rfl
    | ub => rfl
    | hang => rfl
  · rw [prefixI_iff]
    rintro ⟨x, hx⟩
    have h2 := congrArg (List.take 3) hx
    rw [List.map_append, show k.map Char.toLower = "lpt".toList from hk] at h2
    simp at h2

theorem osStream_com {k : List Char} (hk : fold k = "com".toList) (r : List Char) :
    osStream (k ++ r) = (osPort "/dev/ttyS".toList r >>= fun o => .ok (o.getD (k ++ r))) := by
  have hl : k.length = 3 := by have := congrArg List.length hk; simpa [fold] using this
  unfold osStream
  simp only [stricmp_zero]
  rw [if_neg (fun hc => absurd (fold_three hk (by decide) hc) (by decide)), if_neg (fun hc => absurd (fold_three hk (by decide) hc) (by decide)),
    if_neg (fun hc => absurd (fold_three hk (by decide) hc) (by decide)), if_neg, Res.ok_bind, if_pos (prefixI_port (hk.trans (by decide)))]
  · rw [← hl, List.drop_left]
    cases osPort "/dev/ttyS".toList r with
    | ok o => cases o <;> rfl
    | ub => rfl
    | hang => rfl
  · rw [prefixI_iff]
    rintro ⟨x, hx⟩
    have h2 := congrArg (List.take 3) hx
    rw [List.map_append, show k.map Char.toLower = "com".toList from hk] at h2
    simp at h2

/-- The names NUL, CON, PRN, LPT1 to LPT11 and COM1 to COM11, whatever the case of their letters, stand for the devices. -/
theorem C54_device (p d : List Char) (h : device p = some d) : osStream p = .ok d := by
  unfold device at h
  cases hf : devices.find? fun d => d.1 == p.map Char.toLower with
  | none => rw [hf] at h; simp at h
  | some e =>
    rw [hf] at h
    simp only [Option.map_some, Option.some.injEq] at h
    subst h
    have hm := List.mem_of_find?_eq_some hf
    have he : fold p = e.1 := by have : e.1 = p.map Char.toLower := by simpa using List.find?_some hf
                                 exact this.symm
    simp only [devices, List.mem_append, List.mem_cons, List.not_mem_nil, or_false, List.mem_map, List.mem_range] at hm
    rcases hm with ((rfl | rfl | rfl) | ⟨i, hi, rfl⟩) | ⟨i, hi, rfl⟩
    · unfold osStream
      simp only [stricmp_zero, he]
      rfl
    · unfold osStream
      simp only [stricmp_zero, he]
      rfl
    · unfold osStream
      simp only [stricmp_zero, he]
      rfl
    · obtain ⟨k, r, rfl, h1, h2⟩ := fold_split he
      rw [osStream_lpt h1, fold_digits (small_number ⟨i, hi⟩).2.1 h2, osPort_small i hi]
      rfl
    · obtain ⟨k, r, rfl, h1, h2⟩ := fold_split he
      rw [osStream_com h1, fold_digits (small_number ⟨i, hi⟩).2.1 h2, osPort_small i hi]
      rfl

example : device "Com7".toList = some "/dev/ttyS6".toList ∧ device "nul".toList = some "/dev/null".toList ∧
    device "LPT11".toList = some "/dev/lpt10".toList ∧ device "com12".toList = none := by decide

/-- A name in which COM or LPT is followed by a number that ends it, or by a number below what `long` can hold. -/
def PortLike (p : List Char) : Prop :=
  ∃ k w t v x, p = k ++ (w ++ (t ++ x)) ∧ PortName k ∧ (∀ c ∈ w, isSpace c = true) ∧ DecInt t v ∧ (x = [] ∨ v ≤ -2 ^ 63)

theorem osPort_none {k r : List Char} (hk : PortName k) (h : ¬ PortLike (k ++ r)) (dev : List Char) : osPort dev r = .ok none := by
  unfold osPort
  rcases strtol10_cases r with ⟨h1, h2⟩ | ⟨w, t, v, x, h1, h2, h3, h4, h5⟩
  · rw [h1, h2, if_neg (by omega)]
    simp only
    rw [if_neg]
    rintro ⟨-, h3, -⟩
    revert h3
    decide
  · rw [h4, h5, if_neg]
    · simp only
      rw [if_neg]
      rintro ⟨h6, -⟩
      exact h ⟨k, w, t, v, x, by rw [h1], hk, h2, h3, .inl h6⟩
    · intro h6
      exact h ⟨k, w, t, v, x, by rw [h1], hk, h2, h3, .inr h6⟩

/-- Every other name stands for itself.  Partial: except COM and LPT followed by a number written otherwise, of which some are taken for
devices (`C54_spelling`) and some are undefined (`C54_undefined`). -/
theorem C54_plain_partial (p : List Char) (h : device p = none) (hp : ¬ PortLike p) : osStream p = .ok p := by
  have hd : ∀ e ∈ devices, fold p ≠ e.1 := by
    intro e he hc
    unfold device at h
    rw [Option.map_eq_none_iff, List.find?_eq_none] at h
    exact h e he (by rw [beq_iff_eq]; exact hc.symm)
  by_cases h1 : prefixI "LPT".toList p = true
  · obtain ⟨x, hx⟩ := (prefixI_iff _ _).1 h1
    obtain ⟨k, r, rfl, h2, -⟩ := fold_split hx.symm
    have hk : fold k = "lpt".toList := h2.trans (by decide)
    rw [osStream_lpt hk, osPort_none (.inl hk) hp]
    rfl
  · by_cases h2 : prefixI "COM".toList p = true
    · obtain ⟨x, hx⟩ := (prefixI_iff _ _).1 h2
      obtain ⟨k, r, rfl, h3, -⟩ := fold_split hx.symm
      have hk : fold k = "com".toList := h3.trans (by decide)
      rw [osStream_com hk, osPort_none (.inr hk) hp]
      rfl
    · unfold osStream
      simp only [stricmp_zero]
      rw [if_neg (fun hc => hd ("nul".toList, "/dev/null".toList) (by decide) (hc.trans (by decide))),
        if_neg (fun hc => hd ("con".toList, "/dev/tty".toList) (by decide) (hc.trans (by decide))),
        if_neg (fun hc => hd ("prn".toList, "/dev/lpt0".toList) (by decide) (hc.trans (by decide))), if_neg h1, if_neg h2]
      rfl

theorem absolute_iff (p : List Char) : absolute p = true ↔ Rooted p := by
  unfold Rooted
  match p with
  | [] => simp [absolute]
  | [c] =>
    by_cases h : c = '/'
    · subst h; simp [absolute]
    · unfold absolute
      split <;> simp_all
  | c :: d :: r =>
    by_cases h : c = '/'
    · subst h
      by_cases h2 : d = '/'
      · subst h2; simp [absolute]
      · simp [absolute, h2]
    · unfold absolute
      split <;> simp_all

theorem device_rooted {p d : List Char} (h : device p = some d) : Rooted d := by
  have : ∀ e ∈ devices, Rooted e.2 := by decide
  unfold device at h
  cases hf : devices.find? fun d => d.1 == p.map Char.toLower with
  | none => rw [hf] at h; simp at h
  | some e =>
    rw [hf] at h
    cases h
    exact this e (List.mem_of_find?_eq_some hf)

/-- The file a name stands for: the device of that name, itself if it begins with a separator, the file in the current directory otherwise;
with a buffer large enough all ways of completing names agree, and looking for the file finds it iff it exists. -/
theorem C54_file_partial (cur p : List Char) (hp : (device p).isSome ∨ ¬ PortLike p) :
    fullPathDup cur p = .ok (fileOf cur p) ∧
    (∀ size, (fileOf cur p).length < size → fullPathBuf size cur p = .ok (fileOf cur p)) ∧
    (∀ (ex : List Char → Bool) (size : Nat), (fileOf cur p).length < size →
      fullPathFile ex size cur p = .ok (if ex (fileOf cur p) then some (fileOf cur p) else none)) := by
  have key : ∃ path, osStream p = .ok path ∧ (if absolute path then path else cur ++ '/' :: path) = fileOf cur p := by
    unfold fileOf
    cases hd : device p with
    | some d =>
      refine ⟨d, C54_device p d hd, ?_⟩
      rw [if_pos ((absolute_iff d).2 (device_rooted hd))]
    | none =>
      rw [hd] at hp
      refine ⟨p, C54_plain_partial p hd (by simpa using hp), ?_⟩
      simp only [absolute_iff]
  obtain ⟨path, h1, h2⟩ := key
  rw [← h2]
  refine ⟨?_, ?_, ?_⟩
  · unfold fullPathDup
    rw [h1, Res.ok_bind]
    split <;> rfl
  · intro size hs
    unfold fullPathBuf
    rw [h1, Res.ok_bind]
    split
    · next h => rw [if_pos h] at hs; rw [List.take_of_length_le (by omega)]
    · next h => rw [if_neg h] at hs; rw [List.take_of_length_le (by omega)]
  · intro ex size hs
    unfold fullPathFile
    rw [h1, Res.ok_bind]
    split
    · next h =>
      rw [if_pos h] at hs
      rw [List.take_of_length_le (by omega)]
      split <;> rfl
    · next h =>
      rw [if_neg h] at hs
      rw [List.take_of_length_le (by omega)]
      simp only
      split <;> rfl

/-- Whatever the name and the buffer, the text written fits the buffer with its terminator. -/
theorem C54_fits (size : Nat) (hs : 0 < size) (cur p t : List Char) :
    (fullPathBuf size cur p = .ok t → t.length < size) ∧
    (∀ ex, fullPathFile ex size cur p = .ok (some t) → t.length < size) := by
  constructor
  · unfold fullPathBuf
    rw [res_bind_eq_ok]
    rintro ⟨path, -, h⟩
    split at h <;> injection h with h <;> subst h <;> simp only [List.length_take] <;> omega
  · intro ex
    unfold fullPathFile
    rw [res_bind_eq_ok]
    rintro ⟨path, -, h⟩
    split at h
    · split at h
      · injection h with h; injection h with h; subst h; simp only [List.length_take]; omega
      · injection h with h; cases h
    · simp only at h
      split at h
      · injection h with h; injection h with h; subst h; simp only [List.length_take]; omega
      · injection h with h; cases h

example : fileOf "/home".toList "a/b".toList = "/home/a/b".toList ∧ fileOf "/home".toList "/a".toList = "/a".toList ∧
    fileOf "/home".toList "Nul".toList = "/dev/null".toList := by decide

/-- Completing a name in place gives the same file.  Partial: the name is not that of a device (`C54_in_place_device`), and the text has room or
is not moved when it grows (`C54_in_place_undefined`). -/
theorem C54_in_place_partial (moves : Bool) (cap : Nat) (cur p : List Char) (hd : device p = none) (hp : ¬ PortLike p)
    (hr : moves = false ∨ (fileOf cur p).length < cap) : esFullPath moves cap cur p = .ok (fileOf cur p) := by
  unfold esFullPath
  rw [C54_plain_partial p hd hp, Res.ok_bind]
  unfold fileOf at hr ⊢
  rw [hd] at hr ⊢
  simp only [absolute_iff]
  simp only at hr
  split
  · rfl
  · next h =>
    rw [if_neg h] at hr
    rw [if_neg]
    rintro ⟨h1, h2⟩
    rcases hr with hr | hr
    · rw [h2] at hr; cases hr
    · simp only [List.length_append, List.length_cons] at hr
      omega

theorem not_portLike {p : List Char} (h : ∀ k, k <+: p → k.length = 3 → ¬ PortName k) : ¬ PortLike p := by
  rintro ⟨k, w, t, v, x, rfl, hk, -⟩
  refine h k (List.prefix_append _ _) ?_ hk
  rcases hk with hk | hk <;> (have := congrArg List.length hk; simpa using this)

/-- An ordinary name meets the hypotheses. -/
example : device "a.txt".toList = none ∧ ¬ PortLike "a.txt".toList := by
  refine ⟨by decide, not_portLike ?_⟩
  rintro k ⟨x, hx⟩ hl hk
  have : k = "a.t".toList := by
    have := congrArg (List.take 3) hx
    rw [← hl, List.take_left, hl] at this
    exact this
  subst this
  revert hk
  unfold PortName
  decide

/-! ### Violations -/

/-- COM (as LPT) followed by blanks, signs or zeros and a number from 1 to 11, or by a number that differs from it by a multiple of 2^32, is taken for
the device of that number. -/
theorem C54_spelling (k w t : List Char) (v : Int) (hk : fold k = "com".toList) (hw : ∀ c ∈ w, isSpace c = true) (ht : DecInt t v)
    (h1 : -2 ^ 63 < v) (h2 : v < 2 ^ 63) (h3 : (v - 1) % 2 ^ 32 ≤ 10) :
    osStream (k ++ (w ++ t)) = .ok ("/dev/ttyS".toList ++ (toString ((v - 1) % 2 ^ 32).toNat).toList) := by
  rw [osStream_com hk, osPort_number hw ht _ h1 h2 h3]
  rfl

example : osStream "COM4294967297".toList = .ok "/dev/ttyS0".toList ∧ osStream "com +02".toList = .ok "/dev/ttyS1".toList := by decide +kernel

/-- A number below what `long` can hold is undefined, whatever follows it. -/
theorem C54_undefined (k w t x : List Char) (v : Int) (hk : PortName k) (hs : strtol10 (w ++ (t ++ x)) = v) (hv : v ≤ -2 ^ 63) :
    osStream (k ++ (w ++ (t ++ x))) = .ub := by
  rcases hk with hk | hk
  · rw [osStream_lpt hk]
    unfold osPort
    rw [hs, if_pos hv]
    rfl
  · rw [osStream_com hk]
    unfold osPort
    rw [hs, if_pos hv]
    rfl

example : osStream "com-9223372036854775808.txt".toList = .ub := by decide +kernel

/-- Completing the name of a device in place does nothing: the name is neither the device nor the file of the current directory. -/
theorem C54_in_place_device (moves : Bool) (cap : Nat) (cur p d : List Char) (h : device p = some d) :
    esFullPath moves cap cur p = .ok p := by
  unfold esFullPath
  rw [C54_device p d h, Res.ok_bind, if_pos ((absolute_iff d).2 (device_rooted h))]

/-- If a relative name has to be moved to make room for the current directory, memory that was released is read. -/
theorem C54_in_place_undefined (cap : Nat) (cur p : List Char) (hd : device p = none) (hp : ¬ PortLike p) (hr : ¬ Rooted p)
    (hc : cap ≤ (cur ++ '/' :: p).length) : esFullPath true cap cur p = .ub := by
  unfold esFullPath
  rw [C54_plain_partial p hd hp, Res.ok_bind]
  simp only [absolute_iff]
  rw [if_neg hr, if_pos]
  simp only [List.length_append, List.length_cons] at hc
  exact ⟨by omega, by decide⟩

end PBat
