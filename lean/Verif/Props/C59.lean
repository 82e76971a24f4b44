import Verif.Model.CopyFile
import Verif.Spec.FileMap
/-
C59: the bytes of copied, concatenated and moved files.
-/
namespace PBat
open Spec

theorem disk_set_same (f : Disk) (p x : List Char) : f.set p x p = some x := by simp [Disk.set]
theorem disk_set_other (f : Disk) (p x q : List Char) (h : q ≠ p) : f.set p x q = f q := by simp [Disk.set, h]

theorem writeAt_end (app : Bool) (base y d : List Char) (hb : app = false → base = []) :
    writeAt app y.length (base ++ y) d = base ++ (y ++ d) := by
  unfold writeAt
  cases app with
  | true => simp
  | false => simp [hb rfl]

/-- What the loops do. `x`: the contents of the source; `base`: what precedes in the destination; `y`: what has been written. -/
theorem copyBytes_spec (src dst x base : List Char) (app : Bool) (code : Int) (hcode : code ≠ 0) (hne : src ≠ dst) (hb : app = false → base = []) :
    ∀ (es : List IoEv) (f : Disk) (y dn rest : List Char) (st : Option (List Char × Nat)) (f' : Disk) (c : Int),
    f src = some x → f dst = some (base ++ y) → x = dn ++ (st.elim [] (·.1)) ++ rest →
    (dn ++ st.elim [] (fun s => s.1.take s.2)).Sublist y → (∀ s, st = some s → s.2 < s.1.length) →
    copyBytes src dst app code es f (dn ++ (st.elim [] (·.1))).length y.length st = some (f', c) →
    ∃ y', f' dst = some (base ++ y') ∧ (∀ q, q ≠ dst → f' q = f q) ∧ (c = 0 → x.Sublist y') ∧ (c = 0 ∨ c = code) ∧
      (IoEv.err ∉ es → dn ++ st.elim [] (fun s => s.1.take s.2) = y → c = 0 ∧ y' = x)
  | [], _, _, _, _, _, _, _, _, _, _, _, _, h => by simp [copyBytes] at h
  | e :: es, f, y, dn, rest, none, f', c, h1, h2, h3, h4, h5, h => by
    simp only [Option.elim_none, List.append_nil] at *
    cases e with
    | err =>
      simp only [copyBytes, Option.some.injEq, Prod.mk.injEq] at h
      obtain ⟨rfl, rfl⟩ := h
      exact ⟨y, h2, fun _ _ => rfl, fun h => absurd h hcode, .inr rfl, fun h => absurd (List.mem_cons_self ..) h⟩
    | n k =>
      simp only [copyBytes, h1, Option.getD_some] at h
      have hx : x.drop dn.length = rest := by rw [h3]; simp
      rw [hx] at h
      split at h
      · next hr =>
        simp only [Option.some.injEq, Prod.mk.injEq] at h
        obtain ⟨rfl, rfl⟩ := h
        have : x = dn := by rw [h3, hr, List.append_nil]
        exact ⟨y, h2, fun _ _ => rfl, fun _ => this ▸ h4, .inl rfl, fun _ hy => ⟨rfl, by rw [this, hy]⟩⟩
      · next hr =>
        have hlen : 0 < (rest.take (min (max k 1) 2048)).length := by
          rw [List.length_take]
          have := List.length_pos_iff.2 hr
          omega
        obtain ⟨y', g1, g2, g3, g4, g5⟩ := copyBytes_spec src dst x base app code hcode hne hb es f y dn (rest.drop (min (max k 1) 2048))
          (some (rest.take (min (max k 1) 2048), 0)) f' c h1 h2 (by simp [h3]) (by simpa using h4) (by rintro s ⟨⟩; exact hlen)
          (by simpa only [Option.elim_some, List.length_append] using h)
        exact ⟨y', g1, g2, g3, g4, fun he hy => g5 (fun h => he (by simp [h])) (by simpa using hy)⟩
  | e :: es, f, y, dn, rest, some (buf, w), f', c, h1, h2, h3, h4, h5, h => by
    have hw : w < buf.length := h5 _ rfl
    simp only [Option.elim_some] at *
    cases e with
    | err =>
      simp only [copyBytes] at h
      split at h
      · simp only [Option.some.injEq, Prod.mk.injEq] at h
        obtain ⟨rfl, rfl⟩ := h
        exact ⟨y, h2, fun _ _ => rfl, fun h => absurd h hcode, .inr rfl, fun h => absurd (List.mem_cons_self ..) h⟩
      · obtain ⟨y', g1, g2, g3, g4, g5⟩ := copyBytes_spec src dst x base app code hcode hne hb es f y dn rest (some (buf, w - 1)) f' c h1 h2 h3
          (List.Sublist.trans (List.sublist_append_iff.2 ⟨dn, buf.take (w - 1), rfl, List.Sublist.refl _,
              (List.take_prefix_take_left (by omega)).sublist⟩) h4)
          (by rintro s ⟨⟩; exact (by omega : w - 1 < buf.length)) h
        exact ⟨y', g1, g2, g3, g4, fun he => absurd (List.mem_cons_self ..) he⟩
    | n k =>
      simp only [copyBytes, h2, Option.getD_some] at h
      rw [writeAt_end app base y _ hb] at h
      have hsub : (dn ++ (buf.take w ++ (buf.drop w).take k)).Sublist (y ++ (buf.drop w).take k) := by
        rw [← List.append_assoc]
        exact h4.append (List.Sublist.refl _)
      have htake : buf.take (w + ((buf.drop w).take k).length) = buf.take w ++ (buf.drop w).take k := by
        rw [List.take_add]
        congr 1
        rw [List.length_take]
        by_cases hk : k ≤ (buf.drop w).length
        · rw [Nat.min_eq_left hk]
        · rw [Nat.min_eq_right (by omega), List.take_length, List.take_of_length_le (by omega)]
      have hne' : ∀ z q, q ≠ dst → (f.set dst z) q = f q := fun z q hq => disk_set_other f dst z q hq
      split at h
      · next hfull =>
        have hall : buf.take w ++ (buf.drop w).take k = buf := by
          rw [← htake, hfull, List.take_length]
        obtain ⟨y', g1, g2, g3, g4, g5⟩ := copyBytes_spec src dst x base app code hcode hne hb es _ (y ++ (buf.drop w).take k) (dn ++ buf) rest none f' c
          (by rw [hne' _ _ hne]; exact h1) (disk_set_same ..) (by simpa using h3) (by simpa [hall] using hsub) (by simp)
          (by simpa [Nat.add_assoc] using h)
        refine ⟨y', g1, fun q hq => by rw [g2 q hq, hne' _ _ hq], g3, g4, fun he hy => g5 (fun h => he (by simp [h])) ?_⟩
        simp only [Option.elim_none, List.append_nil]
        rw [← hy, List.append_assoc, hall]
      · next hfull =>
        obtain ⟨y', g1, g2, g3, g4, g5⟩ := copyBytes_spec src dst x base app code hcode hne hb es _ (y ++ (buf.drop w).take k) dn rest
          (some (buf, w + ((buf.drop w).take k).length)) f' c
          (by rw [hne' _ _ hne]; exact h1) (disk_set_same ..) h3 (by simpa only [Option.elim_some, htake] using hsub)
          (by
            rintro s ⟨⟩
            show w + ((buf.drop w).take k).length < buf.length
            have : ((buf.drop w).take k).length ≤ buf.length - w := by rw [List.length_take, List.length_drop]; omega
            omega)
          (by simpa [Nat.add_assoc] using h)
        refine ⟨y', g1, fun q hq => by rw [g2 q hq, hne' _ _ hq], g3, g4, fun he hy => g5 (fun h => he (by simp [h])) ?_⟩
        simp only [Option.elim_some]
        rw [htake, ← hy, List.append_assoc]

/-- Enough calls that pass at least one byte each end the loops. -/
theorem copyBytes_ends (src dst x base : List Char) (app : Bool) (code : Int) (hne : src ≠ dst) (hb : app = false → base = []) :
    ∀ (es : List IoEv) (f : Disk) (y dn rest : List Char) (st : Option (List Char × Nat)),
    f src = some x → f dst = some (base ++ y) → x = dn ++ (st.elim [] (·.1)) ++ rest → (∀ s, st = some s → s.2 < s.1.length) →
    (∀ e ∈ es, ∃ k, e = .n (k + 1)) → st.elim 0 (fun s => s.1.length - s.2) + 2 * rest.length < es.length →
    (copyBytes src dst app code es f (dn ++ (st.elim [] (·.1))).length y.length st).isSome
  | [], _, _, _, _, _, _, _, _, _, _, h => by simp at h
  | e :: es, f, y, dn, rest, none, h1, h2, h3, h5, h6, h7 => by
    obtain ⟨k, rfl⟩ := h6 e (by simp)
    simp only [Option.elim_none, List.append_nil] at *
    simp only [copyBytes, h1, Option.getD_some]
    have hx : x.drop dn.length = rest := by rw [h3]; simp
    rw [hx]
    split
    · rfl
    · next hr =>
      have hr := List.length_pos_iff.2 hr
      have hlen : (rest.take (min (max (k + 1) 1) 2048)).length = min (min (max (k + 1) 1) 2048) rest.length := List.length_take
      have := copyBytes_ends src dst x base app code hne hb es f y dn (rest.drop (min (max (k + 1) 1) 2048))
        (some (rest.take (min (max (k + 1) 1) 2048), 0)) h1 h2 (by simp [h3]) (by
          rintro s ⟨⟩
          show 0 < (rest.take (min (max (k + 1) 1) 2048)).length
          omega) (fun e he => h6 e (by simp [he])) (by
          simp only [Option.elim_some, List.length_cons, List.length_drop] at h7 ⊢
          omega)
      simpa only [Option.elim_some, List.length_append] using this
  | e :: es, f, y, dn, rest, some (buf, w), h1, h2, h3, h5, h6, h7 => by
    have hw : w < buf.length := h5 _ rfl
    obtain ⟨k, rfl⟩ := h6 e (by simp)
    simp only [Option.elim_some, List.length_cons] at *
    simp only [copyBytes, h2, Option.getD_some]
    rw [writeAt_end app base y _ hb]
    have hlen : ((buf.drop w).take (k + 1)).length = min (k + 1) (buf.length - w) := by rw [List.length_take, List.length_drop]
    have hne' : ∀ z q, q ≠ dst → (f.set dst z) q = f q := fun z q hq => disk_set_other f dst z q hq
    split
    · have := copyBytes_ends src dst x base app code hne hb es _ (y ++ (buf.drop w).take (k + 1)) (dn ++ buf) rest none
        (by rw [hne' _ _ hne]; exact h1) (disk_set_same f dst (base ++ (y ++ (buf.drop w).take (k + 1)))) (by simpa using h3) (by simp) (fun e he => h6 e (by simp [he])) (by
          simp only [Option.elim_none]
          omega)
      simpa [Nat.add_assoc] using this
    · have := copyBytes_ends src dst x base app code hne hb es _ (y ++ (buf.drop w).take (k + 1)) dn rest
        (some (buf, w + ((buf.drop w).take (k + 1)).length))
        (by rw [hne' _ _ hne]; exact h1) (disk_set_same f dst (base ++ (y ++ (buf.drop w).take (k + 1)))) h3 (by
          rintro s ⟨⟩
          show w + ((buf.drop w).take (k + 1)).length < buf.length
          omega) (fun e he => h6 e (by simp [he])) (by
          simp only [Option.elim_some]
          omega)
      simpa [Nat.add_assoc] using this

/-- COPY of one file onto another: if the copy ends with error level 0, the destination has all the bytes of the source in order, and it has them
exactly if no call failed on the way; no other file changes.  Missing: a call that fails after a part of a block has been written
(`C59_repeated`). -/
theorem C59_copy_partial (es : List IoEv) (f f' : Disk) (src dst x : List Char) (c : Int) (hx : f src = some x) (hne : src ≠ dst)
    (h : copyFile true es f src dst = some (f', c)) :
    (∀ q, q ≠ dst → f' q = f q) ∧ (c = 0 ∨ c = 48) ∧ (c = 0 → ∃ y, f' dst = some y ∧ x.Sublist y) ∧
      (IoEv.err ∉ es → c = 0 ∧ f' dst = some x) := by
  unfold copyFile at h
  rw [hx] at h
  simp only [Option.isNone_some, Bool.false_eq_true, if_false, Bool.true_eq_false] at h
  obtain ⟨y, g1, g2, g3, g4, g5⟩ := copyBytes_spec src dst x [] false 48 (by decide) hne (fun _ => rfl) es (f.set dst []) [] [] x none f' c
    (by rw [disk_set_other _ _ _ _ hne]; exact hx) (disk_set_same ..) (by simp) (by simp) (by simp) (by simpa using h)
  refine ⟨fun q hq => by rw [g2 q hq, disk_set_other _ _ _ _ hq], g4, fun h0 => ⟨y, by simpa using g1, g3 h0⟩, fun he => ?_⟩
  obtain ⟨h0, rfl⟩ := g5 he (by simp)
  exact ⟨h0, by simpa using g1⟩

/-- The copy ends once there have been as many calls as needed: two for each byte at most. -/
theorem C59_copy_ends (es : List IoEv) (f : Disk) (src dst x : List Char) (hx : f src = some x) (hne : src ≠ dst)
    (he : ∀ e ∈ es, ∃ k, e = .n (k + 1)) (hl : 2 * x.length < es.length) :
    ∃ f', copyFile true es f src dst = some (f', 0) ∧ f' dst = some x ∧ ∀ q, q ≠ dst → f' q = f q := by
  have h1 : (copyFile true es f src dst).isSome := by
    unfold copyFile
    rw [hx]
    simp only [Option.isNone_some, Bool.false_eq_true, if_false, Bool.true_eq_false]
    have := copyBytes_ends src dst x [] false 48 hne (fun _ => rfl) es (f.set dst []) [] [] x none
      (by rw [disk_set_other _ _ _ _ hne]; exact hx) (disk_set_same ..) (by simp) (by simp) he (by simpa using hl)
    simpa using this
  obtain ⟨⟨f', c⟩, h2⟩ := Option.isSome_iff_exists.1 h1
  obtain ⟨h3, -, -, h4⟩ := C59_copy_partial es f f' src dst x c hx hne h2
  obtain ⟨rfl, h5⟩ := h4 (fun h => by obtain ⟨k, hk⟩ := he _ h; cases hk)
  exact ⟨f', h2, h5, h3⟩

/-- If the source is not there or the destination cannot be opened, that is reported and nothing changes. -/
theorem C59_copy_fails (es : List IoEv) (f : Disk) (src dst : List Char) (opens : Bool) :
    (f src = none → copyFile opens es f src dst = some (f, -1) ∧ ∀ b, catFile opens es f src dst b = some (f, 58, b)) ∧
    (f src ≠ none → copyFile false es f src dst = some (f, 48) ∧ ∀ b, catFile false es f src dst b = some (f, 58, true)) := by
  constructor
  · intro h
    simp [copyFile, catFile, h]
  · intro h
    have : (f src).isNone = false := by cases hf : f src <;> simp_all
    simp [copyFile, catFile, this]

/-- Concatenation: the first file replaces the destination, the others are put at its end. -/
theorem C59_cat_partial (es : List IoEv) (f f' : Disk) (src dst x base : List Char) (second b : Bool) (c : Int) (hx : f src = some x) (hne : src ≠ dst)
    (hbase : base = if second then (f dst).getD [] else []) (h : catFile true es f src dst second = some (f', c, b)) :
    b = true ∧ (∀ q, q ≠ dst → f' q = f q) ∧ (c = 0 ∨ c = 58) ∧ (c = 0 → ∃ y, f' dst = some (base ++ y) ∧ x.Sublist y) ∧
      (IoEv.err ∉ es → c = 0 ∧ f' dst = some (base ++ x)) := by
  unfold catFile at h
  rw [hx, ← hbase] at h
  simp only [Option.isNone_some, Bool.false_eq_true, if_false, Bool.true_eq_false, Option.map_eq_some_iff, Prod.mk.injEq] at h
  obtain ⟨⟨f1, c1⟩, h, rfl, rfl, rfl⟩ := h
  obtain ⟨y, g1, g2, g3, g4, g5⟩ := copyBytes_spec src dst x base second 58 (by decide) hne (by rintro rfl; simpa using hbase) es (f.set dst base) [] [] x none f1 c1
    (by rw [disk_set_other _ _ _ _ hne]; exact hx) (by rw [List.append_nil]; exact disk_set_same ..) (by simp) (by simp) (by simp) (by simpa using h)
  refine ⟨rfl, fun q hq => (g2 q hq).trans (disk_set_other _ _ _ _ hq), g4, fun h0 => ⟨y, g1, g3 h0⟩, fun he => ?_⟩
  obtain ⟨h0, rfl⟩ := g5 he (by simp)
  exact ⟨h0, g1⟩

/-- MOVE of one file onto another. -/
theorem C59_move (f : Disk) (src dst x : List Char) (hx : f src = some x) (hne : src ≠ dst) :
    ∃ f', moveFile true true f src dst = (f', 0) ∧ f' dst = some x ∧ f' src = none ∧ ∀ q, q ≠ src → q ≠ dst → f' q = f q := by
  unfold moveFile
  by_cases hd : (f dst).isSome = true
  · simp only [hd, if_true, hne, if_false, hx]
    exact ⟨_, rfl, by simp, by simp [hne], fun q h1 h2 => by simp [h1, h2]⟩
  · rw [if_neg hd]
    simp only [hx, if_true]
    exact ⟨_, rfl, by simp, by simp [hne], fun q h1 h2 => by simp [h1, h2]⟩

/-- Concatenation ends as well. -/
theorem C59_cat_ends (es : List IoEv) (f : Disk) (src dst x : List Char) (second : Bool) (hx : f src = some x) (hne : src ≠ dst)
    (he : ∀ e ∈ es, ∃ k, e = .n (k + 1)) (hl : 2 * x.length < es.length) :
    ∃ f', catFile true es f src dst second = some (f', 0, true) ∧ f' dst = some ((if second then (f dst).getD [] else []) ++ x) ∧
      ∀ q, q ≠ dst → f' q = f q := by
  have h1 : (catFile true es f src dst second).isSome := by
    unfold catFile
    rw [hx]
    simp only [Option.isNone_some, Bool.false_eq_true, if_false, Bool.true_eq_false]
    have := copyBytes_ends src dst x (if second then (f dst).getD [] else []) second 58 hne (by rintro rfl; simp) es
      (f.set dst (if second then (f dst).getD [] else [])) [] [] x none
      (by rw [disk_set_other _ _ _ _ hne]; exact hx) (by rw [List.append_nil]; exact disk_set_same ..) (by simp) (by simp) he (by simpa using hl)
    simpa using this
  obtain ⟨⟨f', c, b⟩, h2⟩ := Option.isSome_iff_exists.1 h1
  obtain ⟨rfl, h3, -, -, h4⟩ := C59_cat_partial es f f' src dst x _ second b c hx hne rfl h2
  obtain ⟨rfl, h5⟩ := h4 (fun h => by obtain ⟨k, hk⟩ := he _ h; cases hk)
  exact ⟨f', h2, h5, h3⟩

/-- A move that cannot be done is reported; the source is still there. -/
theorem C59_move_fails (f : Disk) (src dst : List Char) (removes renames : Bool) (hne : src ≠ dst) :
    (moveFile removes renames f src dst).2 = 0 ∨ ((moveFile removes renames f src dst).2 = 47 ∧ ∀ q, q ≠ dst → (moveFile removes renames f src dst).1 q = f q) := by
  unfold moveFile
  by_cases hd : (f dst).isSome = true
  · rw [if_pos hd]
    cases removes with
    | false => exact .inr ⟨rfl, fun _ _ => rfl⟩
    | true =>
      simp only [if_true, hne, if_false]
      cases f src with
      | none => exact .inr ⟨rfl, fun q hq => by simp [hq]⟩
      | some x =>
        cases renames with
        | true => exact .inl rfl
        | false => exact .inr ⟨rfl, fun q hq => by simp [hq]⟩
  · rw [if_neg hd]
    simp only
    cases f src with
    | none => exact .inr ⟨rfl, fun q _ => rfl⟩
    | some x =>
      cases renames with
      | true => exact .inl rfl
      | false => exact .inr ⟨rfl, fun q _ => rfl⟩

/-! ### Violations -/

/-- A file copied onto itself is emptied, and that counts as a success. -/
theorem C59_copy_self (es : List IoEv) (f : Disk) (p x : List Char) (k : Nat) (hx : f p = some x) :
    copyFile true (.n k :: es) f p p = some (f.set p [], 0) := by
  unfold copyFile copyBytes
  simp [hx, disk_set_same]

/-- A file moved onto itself is lost. -/
theorem C59_move_self (f : Disk) (p x : List Char) (renames : Bool) (hx : f p = some x) :
    moveFile true renames f p p = (fun q => if q = p then none else f q, 47) := by
  unfold moveFile
  simp [hx]

/-- If the move fails (as between two disks), the file that was at the destination is lost all the same. -/
theorem C59_move_loses (f : Disk) (src dst x y : List Char) (hx : f src = some x) (hne : src ≠ dst) (hy : f dst = some y) :
    (moveFile true false f src dst).2 = 47 ∧ (moveFile true false f src dst).1 dst = none := by
  unfold moveFile
  simp [hx, hy, hne]

/-- `COPY a + b a` loses the contents of `a`. -/
theorem C59_cat_self (es : List IoEv) (f : Disk) (p x : List Char) (k : Nat) (hx : f p = some x) :
    catFile true (.n k :: es) f p p false = some (f.set p [], 0, true) := by
  unfold catFile copyBytes
  simp [hx, disk_set_same]

theorem copyBytes_endless (p : List Char) (code : Int) : ∀ (es : List IoEv) (f : Disk) (z : List Char) (ro wo : Nat) (st : Option (List Char × Nat)),
    f p = some z → ro < z.length + st.elim 0 (fun s => s.1.length - s.2) → (∀ s, st = some s → s.2 < s.1.length) → IoEv.err ∉ es →
    copyBytes p p true code es f ro wo st = none
  | [], _, _, _, _, _, _, _, _, _ => by simp [copyBytes]
  | .err :: es, _, _, _, _, _, _, _, _, h => absurd (List.mem_cons_self ..) h
  | .n k :: es, f, z, ro, wo, none, h1, h2, _, h4 => by
    simp only [Option.elim_none, Nat.add_zero] at h2
    simp only [copyBytes, h1, Option.getD_some]
    have hlen : 0 < (z.drop ro).length := by rw [List.length_drop]; omega
    rw [if_neg (List.length_pos_iff.1 hlen)]
    have hc : ((z.drop ro).take (min (max k 1) 2048)).length = min (min (max k 1) 2048) (z.length - ro) := by rw [List.length_take, List.length_drop]
    refine copyBytes_endless p code es f z _ wo _ h1 ?_ ?_ (fun h => h4 (by simp [h]))
    · simp only [Option.elim_some]
      omega
    · rintro s ⟨⟩
      show 0 < ((z.drop ro).take (min (max k 1) 2048)).length
      omega
  | .n k :: es, f, z, ro, wo, some (buf, w), h1, h2, h3, h4 => by
    have hw : w < buf.length := h3 _ rfl
    simp only [Option.elim_some] at h2
    simp only [copyBytes, h1, Option.getD_some]
    have hd : ((buf.drop w).take k).length = min k (buf.length - w) := by rw [List.length_take, List.length_drop]
    have hz : writeAt true wo z ((buf.drop w).take k) = z ++ (buf.drop w).take k := by simp [writeAt]
    rw [hz]
    split
    · refine copyBytes_endless p code es _ (z ++ (buf.drop w).take k) _ _ _ (disk_set_same ..) ?_ (by simp) (fun h => h4 (by simp [h]))
      simp only [Option.elim_none, List.length_append]
      omega
    · refine copyBytes_endless p code es _ (z ++ (buf.drop w).take k) _ _ _ (disk_set_same ..) ?_ ?_ (fun h => h4 (by simp [h]))
      · simp only [Option.elim_some, List.length_append]
        omega
      · rintro s ⟨⟩
        show w + ((buf.drop w).take k).length < buf.length
        omega

/-- `COPY a + b b`: `b` is added to itself without end. -/
theorem C59_cat_endless (es : List IoEv) (he : IoEv.err ∉ es) (f : Disk) (p x : List Char) (hx : f p = some x) (hne : x ≠ []) :
    catFile true es f p p true = none := by
  unfold catFile
  rw [hx]
  simp only [Option.isNone_some, Bool.false_eq_true, if_false, Bool.true_eq_false, if_true, Option.getD_some]
  rw [copyBytes_endless p 58 es _ x 0 0 none (disk_set_same ..) (by simpa using List.length_pos_iff.2 hne) (by simp) he]
  rfl

/-- A call of `write` that is interrupted after a byte has been written: that byte is in the copy twice, and the level is 0. -/
theorem C59_repeated (f : Disk) (src dst : List Char) (a b : Char) (s : List Char) (hs : s.length ≤ 2046) (hx : f src = some (a :: b :: s)) (hne : src ≠ dst) :
    ∃ f', copyFile true [.n 2048, .n 1, .err, .n 2048, .n 1] f src dst = some (f', 0) ∧ f' dst = some (a :: a :: b :: s) := by
  unfold copyFile
  rw [hx]
  simp only [Option.isNone_some, Bool.false_eq_true, if_false, Bool.true_eq_false]
  simp only [copyBytes, disk_set_other _ _ _ _ hne, hx, Option.getD_some, List.drop_zero, reduceCtorEq, if_false]
  have ht : (a :: b :: s).take (min (max 2048 1) 2048) = a :: b :: s := List.take_of_length_le (by simp; omega)
  rw [ht]
  simp only [disk_set_same, Option.getD_some]
  have ht' : (a :: b :: s).take 2048 = a :: b :: s := List.take_of_length_le (by simp; omega)
  simp [writeAt, ht', disk_set_same, disk_set_other _ _ _ _ hne, hx]

/-- Cases meeting the hypotheses: a copy with short reads and writes, two files joined, a move. -/
example : (∃ f', copyFile true [.n 2, .n 1, .n 1, .n 9, .n 5, .n 3] (fun p => if p = ['a'] then some ['x', 'y', 'z'] else none) ['a'] ['b'] = some (f', 0) ∧
      f' ['b'] = some ['x', 'y', 'z'] ∧ f' ['a'] = some ['x', 'y', 'z']) ∧
    (∃ f', catFile true [.n 2, .n 1, .n 1, .n 1] (fun p => if p = ['a'] then some ['x', 'y'] else some ['u']) ['a'] ['b'] true = some (f', 0, true) ∧
      f' ['b'] = some ['u', 'x', 'y']) := by
  refine ⟨⟨_, rfl, by decide, by decide⟩, ⟨_, rfl, by decide⟩⟩

end PBat
