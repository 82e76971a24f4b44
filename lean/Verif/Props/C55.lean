import Verif.Lemmas.Search
import Verif.Lemmas.Eval
/-
C55: the search of files finds exactly the files that match, level by level.
-/
namespace PBat
open Spec

section
variable {fs : FileSys} (hfs : FileSysLaws fs) (m : List Char → List Char → Bool) (hide : Bool)
include hfs

theorem here_nodir {p : List Char} (h0 : p ≠ []) (h1 : p.getLast? ≠ some '/') (hd : fs.isDir p = false) (l : List Char) :
    here fs m hide (some p) l = [] := by
  have hp : ∀ e, inDir (some p) e = p ++ '/' :: e := fun e => by simp [inDir, h1]
  unfold here
  split
  · have : fs.list p = none := by
      cases hl : fs.list p with
      | none => rfl
      | some es => rw [hfs.listed p (by simp [hl])] at hd; cases hd
    simp [shown, namesIn, this]
  · rw [if_neg]
    intro h
    rw [hp] at h
    rw [hfs.parent p l h0 (by simpa using h)] at hd
    cases hd

theorem selected_nodir (leaf : Option (List Char) → List Char → List (List Char)) {p : List Char} (h0 : p ≠ [])
    (h1 : p.getLast? ≠ some '/') (hd : fs.isDir p = false) (hleaf : ∀ l, leaf (some p) l = []) (ls : List (List Char)) :
    selected fs m hide leaf (some p) ls = [] := by
  have hp : ∀ e, inDir (some p) e = p ++ '/' :: e := fun e => by simp [inDir, h1]
  match ls with
  | [] => rfl
  | [l] => exact hleaf l
  | l :: l' :: ls =>
    rw [selected]
    split
    · have : fs.list p = none := by
        cases hl : fs.list p with
        | none => rfl
        | some es => rw [hfs.listed p (by simp [hl])] at hd; cases hd
      simp [shown, namesIn, this]
    · rw [if_neg]
      intro h
      rw [hp] at h
      rw [hfs.parent p l h0 (.inr h)] at hd
      cases hd

end

/-! ### One directory -/

theorem scan_last {fs : FileSys} {fl : SearchFlags} (hr : fl.recursive = false) (hf : fl.first = false) (sub) (base : Option (List Char))
    (item : List Char) (es ret : List (List Char)) :
    scanDir fs fl sub base item none es ret =
      .ok (ret ++ ((es.filter fun e => !(fl.noPseudo && decide (Dots e))).filter (wildMatch true fl.utf8 item)).map (inDir base)) := by
  induction es generalizing ret with
  | nil => simp [scanDir]
  | cons e es ih =>
    rw [scanDir, isPseudo_eq]
    by_cases h1 : (fl.noPseudo && decide (Dots e)) = true
    · rw [if_pos h1, ih, List.filter_cons_of_neg (by simp [h1])]
    · rw [if_neg h1, List.filter_cons_of_pos (by rw [Bool.eq_false_iff.2 h1]; rfl)]
      by_cases h2 : wildMatch true fl.utf8 item e = true
      · rw [if_pos h2, List.filter_cons_of_pos h2]
        simp only [hr, hf, joinPath_eq, Bool.and_false, Bool.false_and, Bool.false_eq_true, if_false, Res.ok_bind, ih]
        split
        · simp
        · cases fl.callback <;> simp
      · rw [if_neg h2, List.filter_cons_of_neg h2, hr]
        simp [ih]

theorem scan_more {fs : FileSys} (hfs : FileSysLaws fs) {fl : SearchFlags} (hf : fl.first = false) (sub)
    (base : Option (List Char)) (item u : List Char) (f : List Char → List (List Char)) (hs : ∀ b r, sub b u r = .ok (r ++ f b))
    (es ret : List (List Char)) (hf2 : ∀ e ∈ es, fs.isDir (inDir base e) = false → f (inDir base e) = []) :
    scanDir fs fl sub base item (some u) es ret =
      .ok (ret ++ ((es.filter fun e => !(fl.noPseudo && decide (Dots e))).filter fun e =>
        wildMatch true fl.utf8 item e && fs.isDir (inDir base e)).flatMap fun e => f (inDir base e)) := by
  induction es generalizing ret with
  | nil => simp [scanDir]
  | cons e es ih =>
    have ih := fun ret => ih ret (fun e he => hf2 e (by simp [he]))
    have hf2 := hf2 e (by simp)
    rw [scanDir, isPseudo_eq]
    by_cases h1 : (fl.noPseudo && decide (Dots e)) = true
    · rw [if_pos h1, ih, List.filter_cons_of_neg (by simp [h1])]
    · rw [if_neg h1, List.filter_cons_of_pos (by rw [Bool.eq_false_iff.2 h1]; rfl)]
      by_cases h2 : wildMatch true fl.utf8 item e = true
      · rw [if_pos h2]
        simp only [hf, joinPath_eq, Bool.false_and, Bool.false_eq_true, if_false, hs, Res.ok_bind, ih]
        cases hd : fs.isDir (inDir base e) with
        | true =>
          have : fs.isReg (inDir base e) = false := by
            cases h : fs.isReg (inDir base e) with
            | false => rfl
            | true => rw [hfs.one _ h] at hd; cases hd
          rw [if_neg (by simp [this]), List.filter_cons_of_pos (by simp [h2, hd])]
          simp
        | false =>
          rw [List.filter_cons_of_neg (by simp [hd]), hf2 hd]
          simp
      · rw [if_neg h2, List.filter_cons_of_neg (by simp [h2])]
        simp [ih]

/-! ### The levels -/

theorem searchIn_levels {fs : FileSys} (hfs : FileSysLaws fs) {fl : SearchFlags} (hr : fl.recursive = false) (hf : fl.first = false)
    (n : Nat) (base : Option (List Char)) (pat : List Char) (ret : List (List Char)) (hn : pat.length < n) (h1 : OneSep pat)
    (h2 : pat.head? ≠ some '/') :
    searchIn fs fl n base (some pat) ret =
      .ok (ret ++ selected fs (wildMatch true fl.utf8) fl.noPseudo (here fs (wildMatch true fl.utf8) fl.noPseudo) base (levels pat)) := by
  induction n generalizing base pat ret with
  | zero => omega
  | succ n ih =>
    rw [searchIn]
    simp only [hf, hr, Bool.false_and, Bool.false_eq_true, if_false, Res.ok_bind, joinPath_eq]
    rcases nextLevel_cases pat with ⟨h3, h4⟩ | ⟨h3, h4, h5⟩ | ⟨l, r, rfl, h3, h4, h5⟩ | ⟨t, r, rfl, h3, h4⟩
    · rw [h4, selected_text hfs _ _ pat h3 h1 h2]
      simp only [Bool.not_false, if_true, Option.map_none, Option.isNone_none, Bool.and_true]
      cases hreg : fs.isReg (inDir base pat) with
      | true => rw [hfs.one _ hreg]; simp
      | false => cases hd : fs.isDir (inDir base pat) <;> cases fl.callback <;> simp
    · rw [h5, levels_nosep h3, selected, here, if_pos h4]
      simp only [Bool.not_true, Bool.false_eq_true, if_false, Option.map_none, shown, namesIn]
      cases hl : fs.list (base.getD ['.']) with
      | none => simp
      | some es => simp only [Option.getD_some]; rw [scan_last hr hf]
    · obtain ⟨l', ls, hlr⟩ : ∃ l' ls, levels r = l' :: ls := by
        cases hr : levels r with
        | nil => exact absurd hr (levels_ne_nil r)
        | cons a b => exact ⟨a, b, rfl⟩
      rw [h5, levels_sep h3, hlr, selected, if_pos h4, ← hlr]
      simp only [Bool.not_true, Bool.false_eq_true, if_false, Option.map_some, shown, namesIn]
      cases hl : fs.list (base.getD ['.']) with
      | none => simp
      | some es =>
        simp only [Option.getD_some]
        rw [scan_more hfs hf _ base l r _ (fun b rt => ih (some b) r rt (by simp at hn; omega) h1.right.1 h1.right.2)]
        intro e he hd
        have := hfs.name _ _ hl e he
        have hne := inDir_name (d := base) this.1 (nosep_last this.2)
        exact selected_nodir hfs _ _ _ hne.1 hne.2 hd (here_nodir hfs _ _ hne.1 hne.2 hd) _
    · have ht : t ≠ [] := by rintro rfl; simp at h2
      have ht2 : t.head? ≠ some '/' := by
        cases t with
        | nil => exact absurd rfl ht
        | cons a b => exact h2
      rw [h4, selected_prefix hfs _ _ _ t r h3 h1 ht2 ht]
      simp only [Bool.not_false, if_true, Option.map_some, Option.isNone_some, Bool.and_false, Bool.false_eq_true, if_false]
      cases hd : fs.isDir (inDir base t) with
      | true => simp only [if_true]; exact ih _ r ret (by simp at hn; omega) h1.right.1 h1.right.2
      | false => simp

/-! ### The first file -/

theorem scan_last_first {fs : FileSys} {fl : SearchFlags} (hr : fl.recursive = false) (hf : fl.first = true) (sub) (base : Option (List Char))
    (item : List Char) (es : List (List Char)) :
    scanDir fs fl sub base item none es [] =
      .ok ((((es.filter fun e => !(fl.noPseudo && decide (Dots e))).filter (wildMatch true fl.utf8 item)).map (inDir base)).take 1) := by
  induction es with
  | nil => simp [scanDir]
  | cons e es ih =>
    rw [scanDir, isPseudo_eq]
    by_cases h1 : (fl.noPseudo && decide (Dots e)) = true
    · rw [if_pos h1, ih, List.filter_cons_of_neg (by simp [h1])]
    · rw [if_neg h1, List.filter_cons_of_pos (by rw [Bool.eq_false_iff.2 h1]; rfl)]
      by_cases h2 : wildMatch true fl.utf8 item e = true
      · rw [if_pos h2, List.filter_cons_of_pos h2]
        simp only [hr, hf, joinPath_eq, Bool.and_true, Bool.false_and, Bool.false_eq_true, if_false, if_true, Res.ok_bind]
        split
        · simp
        · cases fl.callback <;> simp
      · rw [if_neg h2, List.filter_cons_of_neg h2, hr]
        simp [ih]

theorem scan_more_first {fs : FileSys} (hfs : FileSysLaws fs) {fl : SearchFlags} (hf : fl.first = true) (sub)
    (base : Option (List Char)) (item u : List Char) (f : List Char → List (List Char)) (hs : ∀ b, sub b u [] = .ok ((f b).take 1))
    (es : List (List Char)) (hf2 : ∀ e ∈ es, fs.isDir (inDir base e) = false → f (inDir base e) = []) :
    scanDir fs fl sub base item (some u) es [] =
      .ok ((((es.filter fun e => !(fl.noPseudo && decide (Dots e))).filter fun e =>
        wildMatch true fl.utf8 item e && fs.isDir (inDir base e)).flatMap fun e => f (inDir base e)).take 1) := by
  induction es with
  | nil => simp [scanDir]
  | cons e es ih =>
    have ih := ih (fun e he => hf2 e (by simp [he]))
    have hf2 := hf2 e (by simp)
    rw [scanDir, isPseudo_eq]
    by_cases h1 : (fl.noPseudo && decide (Dots e)) = true
    · rw [if_pos h1, ih, List.filter_cons_of_neg (by simp [h1])]
    · rw [if_neg h1, List.filter_cons_of_pos (by rw [Bool.eq_false_iff.2 h1]; rfl)]
      by_cases h2 : wildMatch true fl.utf8 item e = true
      · rw [if_pos h2]
        simp only [hf, joinPath_eq, Bool.true_and, hs, Res.ok_bind, ih]
        cases hd : fs.isDir (inDir base e) with
        | true =>
          have : fs.isReg (inDir base e) = false := by
            cases h : fs.isReg (inDir base e) with
            | false => rfl
            | true => rw [hfs.one _ h] at hd; cases hd
          rw [if_neg (by simp [this]), List.filter_cons_of_pos (by simp [h2, hd]), List.flatMap_cons]
          cases hb : f (inDir base e) with
          | nil => simp [ih]
          | cons a b => simp
        | false =>
          rw [List.filter_cons_of_neg (by simp [hd]), hf2 hd]
          simp [ih]
      · rw [if_neg h2, List.filter_cons_of_neg (by simp [h2])]
        simp [ih]

theorem searchIn_first {fs : FileSys} (hfs : FileSysLaws fs) {fl : SearchFlags} (hr : fl.recursive = false) (hf : fl.first = true)
    (n : Nat) (base : Option (List Char)) (pat : List Char) (hn : pat.length < n) (h1 : OneSep pat)
    (h2 : pat.head? ≠ some '/') :
    searchIn fs fl n base (some pat) [] =
      .ok ((selected fs (wildMatch true fl.utf8) fl.noPseudo (here fs (wildMatch true fl.utf8) fl.noPseudo) base (levels pat)).take 1) := by
  induction n generalizing base pat with
  | zero => omega
  | succ n ih =>
    rw [searchIn]
    simp only [hf, hr, Bool.true_and, Bool.false_eq_true, if_false, Res.ok_bind, joinPath_eq]
    rcases nextLevel_cases pat with ⟨h3, h4⟩ | ⟨h3, h4, h5⟩ | ⟨l, r, rfl, h3, h4, h5⟩ | ⟨t, r, rfl, h3, h4⟩
    · rw [h4, selected_text hfs _ _ pat h3 h1 h2]
      simp only [Bool.not_false, if_true, Option.map_none, Option.isNone_none, Bool.and_true]
      cases hreg : fs.isReg (inDir base pat) with
      | true => rw [hfs.one _ hreg]; simp
      | false => cases hd : fs.isDir (inDir base pat) <;> cases fl.callback <;> simp
    · rw [h5, levels_nosep h3, selected, here, if_pos h4]
      simp only [Bool.not_true, Bool.false_eq_true, if_false, Option.map_none, shown, namesIn]
      cases hl : fs.list (base.getD ['.']) with
      | none => simp
      | some es => simp only [Option.getD_some]; rw [scan_last_first hr hf]
    · obtain ⟨l', ls, hlr⟩ : ∃ l' ls, levels r = l' :: ls := by
        cases hr : levels r with
        | nil => exact absurd hr (levels_ne_nil r)
        | cons a b => exact ⟨a, b, rfl⟩
      rw [h5, levels_sep h3, hlr, selected, if_pos h4, ← hlr]
      simp only [Bool.not_true, Bool.false_eq_true, if_false, Option.map_some, shown, namesIn]
      cases hl : fs.list (base.getD ['.']) with
      | none => simp
      | some es =>
        simp only [Option.getD_some]
        rw [scan_more_first hfs hf _ base l r
          (fun b => selected fs (wildMatch true fl.utf8) fl.noPseudo (here fs (wildMatch true fl.utf8) fl.noPseudo) (some b) (levels r))
          (fun b => by simpa using ih (some b) r (by simp at hn; omega) h1.right.1 h1.right.2)]
        intro e he hd
        have := hfs.name _ _ hl e he
        have hne := inDir_name (d := base) this.1 (nosep_last this.2)
        exact selected_nodir hfs _ _ _ hne.1 hne.2 hd (here_nodir hfs _ _ hne.1 hne.2 hd) _
    · have ht : t ≠ [] := by rintro rfl; simp at h2
      have ht2 : t.head? ≠ some '/' := by
        cases t with
        | nil => exact absurd rfl ht
        | cons a b => exact h2
      rw [h4, selected_prefix hfs _ _ _ t r h3 h1 ht2 ht]
      simp only [Bool.not_false, if_true, Option.map_some, Option.isNone_some, Bool.and_false, Bool.false_eq_true, if_false]
      cases hd : fs.isDir (inDir base t) with
      | true => simpa using ih _ r (by simp at hn; omega) h1.right.1 h1.right.2
      | false => simp

/-! ### Subdirectories -/

theorem deep_nodir {fs : FileSys} (hfs : FileSysLaws fs) (m) (hide pre : Bool) {p : List Char} (hd : fs.isDir p = false) (k : Nat) (l : List Char) :
    deep fs m hide pre k (some p) l = [] := by
  have : fs.list p = none := by
    cases hl : fs.list p with
    | none => rfl
    | some es => rw [hfs.listed p (by simp [hl])] at hd; cases hd
  cases k <;> simp [deep, shown, namesIn, this]

theorem scan_deep {fs : FileSys} (hfs : FileSysLaws fs) {fl : SearchFlags} (hr : fl.recursive = true) (hf : fl.first = false) (sub)
    (base : Option (List Char)) (item : List Char) (f : List Char → List (List Char))
    (es ret : List (List Char)) (hs : ∀ e ∈ es, ¬ Dots e → ∀ r, sub (inDir base e) item r = .ok (r ++ f (inDir base e)))
    (hf2 : ∀ e ∈ es, fs.isDir (inDir base e) = false → f (inDir base e) = []) :
    scanDir fs fl sub base item none es ret =
      .ok (ret ++ (es.filter fun e => !(fl.noPseudo && decide (Dots e))).flatMap fun e =>
      (if fl.callback && wildMatch true fl.utf8 item e then [inDir base e] else []) ++
      (if fs.isDir (inDir base e) && !decide (Dots e) then f (inDir base e) else []) ++
      (if !fl.callback && wildMatch true fl.utf8 item e then [inDir base e] else [])) := by
  induction es generalizing ret with
  | nil => simp [scanDir]
  | cons e es ih =>
    have ih := fun ret => ih ret (fun e he => hs e (by simp [he])) (fun e he => hf2 e (by simp [he]))
    have hf2 := hf2 e (by simp)
    have hs := hs e (by simp)
    rw [scanDir, isPseudo_eq]
    by_cases h1 : (fl.noPseudo && decide (Dots e)) = true
    · rw [if_pos h1, ih, List.filter_cons_of_neg (by simp [h1])]
    · rw [if_neg h1, List.filter_cons_of_pos (by rw [Bool.eq_false_iff.2 h1]; rfl), List.flatMap_cons]
      by_cases h2 : wildMatch true fl.utf8 item e = true
      · rw [if_pos h2]
        simp only [hr, hf, h2, joinPath_eq, Bool.and_true, Bool.and_false, Bool.false_and, Bool.true_and, Bool.false_eq_true, if_false]
        cases hreg : fs.isReg (inDir base e) with
        | true =>
          rw [if_pos rfl, ih, hfs.one _ hreg]
          cases hcb : fl.callback <;> simp
        | false =>
          rw [if_neg (by simp)]
          by_cases hdot : Dots e
          · cases hcb : fl.callback <;> simp [hcb, hdot, ih]
          · cases hd : fs.isDir (inDir base e) with
            | true => cases hcb : fl.callback <;> simp [hcb, hdot, ih, hs hdot]
            | false => cases hcb : fl.callback <;> simp [hcb, hdot, ih, hs hdot, hf2 hd]
      · rw [if_neg h2]
        simp only [hr, joinPath_eq, Bool.true_and, Option.isNone_none, h2, Bool.and_false, Bool.false_eq_true, if_false]
        by_cases hdot : Dots e
        · simp [hdot, ih]
        · cases hd : fs.isDir (inDir base e) with
          | true => simp [hdot, hs hdot, ih]
          | false => simp [hdot, ih]

theorem searchIn_deep {fs : FileSys} (hfs : FileSysLaws fs) {fl : SearchFlags} (hr : fl.recursive = true) (hf : fl.first = false)
    (k n : Nat) (base : Option (List Char)) (l : List Char) (ret : List (List Char)) (hn : k < n) (hl : '/' ∉ l) (hj : WildIn l)
    (hk : Depth fs k base) :
    searchIn fs fl n base (some l) ret = .ok (ret ++ deep fs (wildMatch true fl.utf8) fl.noPseudo fl.callback k base l) := by
  have hnl : nextLevel l = (none, true) := by
    rcases nextLevel_cases l with ⟨h3, h4⟩ | ⟨h3, h4, h5⟩ | ⟨l, r, rfl, h3, h4, h5⟩ | ⟨t, r, rfl, h3, h4⟩
    · obtain ⟨c, hc, hw⟩ := (joker_iff l).1 hj
      rw [h3 c hc] at hw; cases hw
    · exact h5
    · simp at hl
    · simp at hl
  induction k generalizing base ret n with
  | zero => exact hk.elim
  | succ k ih =>
    obtain ⟨n, rfl⟩ : ∃ n', n = n' + 1 := ⟨n - 1, by omega⟩
    rw [searchIn]
    simp only [hf, hnl, Bool.false_and, Bool.false_eq_true, if_false, Bool.not_true, Option.map_none]
    rw [deep, shown, namesIn]
    cases hls : fs.list (base.getD ['.']) with
    | none => simp
    | some es =>
      simp only [Option.getD_some]
      refine scan_deep hfs hr hf _ base l (fun b => deep fs (wildMatch true fl.utf8) fl.noPseudo fl.callback k (some b) l) es ret ?_ ?_
      · intro e he hdot r
        cases hd : fs.isDir (inDir base e) with
        | true => exact ih n (some (inDir base e)) r (by omega) (hk e (by simp [namesIn, hls, he]) hdot hd)
        | false =>
          obtain ⟨n, rfl⟩ : ∃ n', n = n' + 1 := ⟨n - 1, by omega⟩
          have : fs.list (inDir base e) = none := by
            cases hl : fs.list (inDir base e) with
            | none => rfl
            | some es => rw [hfs.listed _ (by simp [hl])] at hd; cases hd
          rw [searchIn]
          simp [hnl, this, deep_nodir hfs _ _ _ hd]
      · intro e _ hd
        exact deep_nodir hfs _ _ _ hd _ _

/-- The last level. -/
theorem searchIn_below {fs : FileSys} (hfs : FileSysLaws fs) {fl : SearchFlags} (hr : fl.recursive = true) (hf : fl.first = false)
    (k n : Nat) (hk : ∀ d, Depth fs k d) (base : Option (List Char)) (pat : List Char) (ret : List (List Char)) (hn : pat.length + k < n)
    (h1 : OneSep pat) (h2 : pat.head? ≠ some '/') (hj : ∀ l, (levels pat).getLast? = some l → WildIn l) :
    searchIn fs fl n base (some pat) ret =
      .ok (ret ++ selected fs (wildMatch true fl.utf8) fl.noPseudo (deep fs (wildMatch true fl.utf8) fl.noPseudo fl.callback k) base (levels pat)) := by
  induction n generalizing base pat ret with
  | zero => omega
  | succ n ih =>
    rcases nextLevel_cases pat with ⟨h3, h4⟩ | ⟨h3, h4, h5⟩ | ⟨l, r, rfl, h3, h4, h5⟩ | ⟨t, r, rfl, h3, h4⟩
    · exfalso
      have hx : ∀ s : List Char, (∀ c ∈ s, isWild c = false) → ∀ l, (levels s).getLast? = some l → ¬ WildIn l := by
        intro s
        induction hn : s.length using Nat.strongRecOn generalizing s with
        | ind n ih =>
        intro hs l hl hj
        rcases sep_first s with h | ⟨a, b, rfl, h⟩
        · rw [levels_nosep h] at hl
          cases hl
          obtain ⟨c, hc, hw⟩ := (joker_iff s).1 hj
          rw [hs c hc] at hw; cases hw
        · rw [levels_sep h, List.getLast?_cons_of_ne_nil (levels_ne_nil b)] at hl
          exact ih b.length (by rw [← hn]; simp; omega) b rfl (fun c hc => hs c (by simp [hc])) l hl hj
      cases hl : (levels pat).getLast? with
      | none => exact levels_ne_nil pat (by simpa using hl)
      | some l => exact hx pat h3 l hl (hj l hl)
    · rw [searchIn_deep hfs hr hf k (n + 1) base pat ret (by omega) h3 h4 (hk _), levels_nosep h3, selected]
    · obtain ⟨l', ls, hlr⟩ : ∃ l' ls, levels r = l' :: ls := by
        cases hr : levels r with
        | nil => exact absurd hr (levels_ne_nil r)
        | cons a b => exact ⟨a, b, rfl⟩
      rw [levels_sep h3, List.getLast?_cons_of_ne_nil (levels_ne_nil r)] at hj
      rw [levels_sep h3, hlr, selected, if_pos h4, ← hlr, searchIn]
      simp only [hf, h5, Bool.false_and, Bool.not_true, Bool.false_eq_true, if_false, Option.map_some, shown, namesIn]
      cases hl : fs.list (base.getD ['.']) with
      | none => simp
      | some es =>
        simp only [Option.getD_some]
        rw [scan_more hfs hf _ base l r _ (fun b rt => ih (some b) r rt (by simp at hn; omega) h1.right.1 h1.right.2 hj)]
        intro e he hd
        have := hfs.name _ _ hl e he
        have hne := inDir_name (d := base) this.1 (nosep_last this.2)
        exact selected_nodir hfs _ _ _ hne.1 hne.2 hd (fun l => deep_nodir hfs _ _ _ hd _ l) _
    · have ht : t ≠ [] := by rintro rfl; simp at h2
      have ht2 : t.head? ≠ some '/' := by
        cases t with
        | nil => exact absurd rfl ht
        | cons a b => exact h2
      have hj' : ∀ l, (levels r).getLast? = some l → WildIn l := by
        have hx : ∀ s : List Char, (levels (s ++ '/' :: r)).getLast? = (levels r).getLast? := by
          intro s
          induction hn : s.length using Nat.strongRecOn generalizing s with
          | ind n ih =>
          rcases sep_first s with h | ⟨a, b, rfl, h⟩
          · rw [levels_sep h, List.getLast?_cons_of_ne_nil (levels_ne_nil r)]
          · rw [List.append_assoc, List.cons_append, levels_sep h, List.getLast?_cons_of_ne_nil (levels_ne_nil _)]
            exact ih b.length (by rw [← hn]; simp; omega) b rfl
        rw [hx] at hj
        exact hj
      rw [selected_prefix hfs _ _ _ t r h3 h1 ht2 ht, searchIn]
      simp only [hf, h4, Bool.false_and, joinPath_eq, Bool.not_false, if_true, Option.map_some, Option.isNone_some, Bool.and_false, Bool.false_eq_true, if_false]
      cases hd : fs.isDir (inDir base t) with
      | true => simp only [if_true]; exact ih _ r ret (by simp at hn; omega) h1.right.1 h1.right.2 hj'
      | false => simp

theorem mem_shown {fs : FileSys} {hide : Bool} {d : Option (List Char)} {e : List Char} :
    e ∈ shown fs hide d ↔ e ∈ namesIn fs d ∧ ¬ (hide = true ∧ Dots e) := by
  cases hide <;> simp [shown]

/-- What a search of subdirectories finds: exactly the files that match in the directory and in every directory below it. -/
theorem C55_below (fs : FileSys) (m : List Char → List Char → Bool) (hide pre : Bool) (k : Nat) (d : Option (List Char)) (hk : Depth fs k d)
    (l x : List Char) :
    x ∈ deep fs m hide pre k d l ↔ ∃ d' e, Below fs d d' ∧ e ∈ shown fs hide d' ∧ m l e = true ∧ x = inDir d' e := by
  induction k generalizing d with
  | zero => exact hk.elim
  | succ k ih =>
    rw [deep, List.mem_flatMap]
    constructor
    · rintro ⟨e, he, hx⟩
      rw [List.mem_append, List.mem_append] at hx
      rcases hx with (hx | hx) | hx
      · split at hx
        · next h => exact ⟨d, e, .here d, he, by simp at h; exact h.2, by simpa using hx⟩
        · cases hx
      · split at hx
        · next h =>
          simp only [Bool.and_eq_true, Bool.not_eq_true', decide_eq_false_iff_not] at h
          have hn := (mem_shown.1 he).1
          obtain ⟨d', e', h1, h2⟩ := (ih _ (hk e hn h.2 h.1)).1 hx
          exact ⟨d', e', .down hn h.2 h.1 h1, h2⟩
        · cases hx
      · split at hx
        · next h => exact ⟨d, e, .here d, he, by simp at h; exact h.2, by simpa using hx⟩
        · cases hx
    · rintro ⟨d', e, h1, h2, h3, rfl⟩
      cases h1 with
      | here =>
        refine ⟨e, h2, ?_⟩
        cases pre <;> simp [h3]
      | @down _ e' _ hn hdot hdir hb =>
        refine ⟨e', mem_shown.2 ⟨hn, fun h => hdot h.2⟩, ?_⟩
        rw [List.mem_append, List.mem_append, if_pos (c := (fs.isDir (inDir d e') && !decide (Dots e')) = true) (by simp [hdir, hdot])]
        exact .inl (.inr ((ih _ (hk e' hn hdot hdir)).2 ⟨d', e, hb, h2, h3, rfl⟩))

/-! ### The order -/

theorem inDir_cancel {d : Option (List Char)} {a b x : List Char} (h : inDir d a = inDir d b ++ x) : a = b ++ x := by
  unfold inDir at h
  cases d with
  | none => exact h
  | some d =>
    simp only at h
    split at h
    · simpa using h
    · simpa using h

theorem name_cancel {a b x y : List Char} (ha : '/' ∉ a) (hb : '/' ∉ b) (hx : x = [] ∨ x.head? = some '/') (hy : y = [] ∨ y.head? = some '/')
    (h : a ++ x = b ++ y) : a = b := by
  induction a generalizing b with
  | nil =>
    cases b with
    | nil => rfl
    | cons c b =>
      rcases hx with rfl | hx
      · cases h
      · simp only [List.nil_append] at h
        rw [h] at hx
        simp at hx
        simp [hx] at hb
  | cons c a ih =>
    cases b with
    | nil =>
      rcases hy with rfl | hy
      · cases h
      · simp only [List.nil_append] at h
        rw [← h] at hy
        simp at hy
        simp [hy] at ha
    | cons c' b =>
      simp only [List.cons_append, List.cons.injEq] at h
      simp only [List.mem_cons, not_or] at ha hb
      rw [h.1, ih ha.2 hb.2 h.2]

section
variable {fs : FileSys} (hfs : FileSysLaws fs) (m : List Char → List Char → Bool) (hide pre : Bool)
include hfs

theorem names_of {d : Option (List Char)} {e : List Char} (h : e ∈ shown fs hide d) : e ≠ [] ∧ '/' ∉ e := by
  have h := (mem_shown.1 h).1
  unfold namesIn at h
  cases hl : fs.list (d.getD ['.']) with
  | none => simp [hl] at h
  | some es => exact hfs.name _ _ hl e (by simpa [hl] using h)

theorem shown_nodup (d : Option (List Char)) : (shown fs hide d).Nodup := by
  unfold shown namesIn
  cases hl : fs.list (d.getD ['.']) with
  | none => simp
  | some es => exact (hfs.nodup _ _ hl).filter _

theorem deep_form (k : Nat) (d : Option (List Char)) (l x : List Char) (hx : x ∈ deep fs m hide pre k d l) :
    ∃ e t, e ∈ shown fs hide d ∧ x = inDir d (e ++ t) ∧ (t = [] ∨ t.head? = some '/') := by
  induction k generalizing d with
  | zero => simp [deep] at hx
  | succ k ih =>
    rw [deep, List.mem_flatMap] at hx
    obtain ⟨e, he, hx⟩ := hx
    rw [List.mem_append, List.mem_append] at hx
    have self : x = inDir d e → ∃ e t, e ∈ shown fs hide d ∧ x = inDir d (e ++ t) ∧ (t = [] ∨ t.head? = some '/') :=
      fun h => ⟨e, [], he, by simpa using h, .inl rfl⟩
    rcases hx with (hx | hx) | hx
    · split at hx
      · exact self (by simpa using hx)
      · cases hx
    · split at hx
      · obtain ⟨e', t, -, h2, -⟩ := ih _ hx
        have hn := names_of hfs hide he
        have := inDir_inDir (d := d) hn.1 (nosep_last hn.2) (e' ++ t)
        exact ⟨e, '/' :: (e' ++ t), he, by rw [h2, this.1, this.2], .inr rfl⟩
      · cases hx
    · split at hx
      · exact self (by simpa using hx)
      · cases hx

/-- Found once, and a directory comes after (or, with a callback, before) what is inside it. -/
def Ordered (pre : Bool) (a b : List Char) : Prop := a ≠ b ∧ ¬ (if pre then Within a b else Within b a)

theorem deep_ordered (k : Nat) (d : Option (List Char)) (l : List Char) : (deep fs m hide pre k d l).Pairwise (Ordered pre) := by
  induction k generalizing d with
  | zero => exact .nil
  | succ k ih =>
    rw [deep, List.flatMap_def, List.pairwise_flatten]
    have hself : ∀ e ∈ shown fs hide d, ∀ x, (x ∈ if fs.isDir (inDir d e) && !decide (Dots e) then deep fs m hide pre k (some (inDir d e)) l else []) →
        Within x (inDir d e) := by
      intro e he x hx
      split at hx
      · obtain ⟨e', t, -, h2, -⟩ := deep_form hfs m hide pre k _ l x hx
        have hn := names_of hfs hide he
        exact ⟨e' ++ t, by rw [h2, (inDir_inDir (d := d) hn.1 (nosep_last hn.2) (e' ++ t)).1]⟩
      · cases hx
    have hlen : ∀ {a b : List Char}, Within a b → a ≠ b ∧ ¬ Within b a := by
      rintro a b ⟨x, rfl⟩
      refine ⟨fun h => ?_, ?_⟩
      · have := congrArg List.length h; simp at this
      · rintro ⟨y, h⟩
        have := congrArg List.length h
        simp at this
    refine ⟨?_, ?_⟩
    · intro L hL
      obtain ⟨e, he, rfl⟩ := List.mem_map.1 hL
      have hin : (if fs.isDir (inDir d e) && !decide (Dots e) then deep fs m hide pre k (some (inDir d e)) l else []).Pairwise (Ordered pre) := by
        split
        · exact ih _
        · exact .nil
      have hs1 := hself e he
      generalize (if fs.isDir (inDir d e) && !decide (Dots e) then deep fs m hide pre k (some (inDir d e)) l else []) = inner at hin hs1 ⊢
      cases pre with
      | true =>
        simp only [Bool.true_and, Bool.not_true, Bool.false_and, Bool.false_eq_true, if_false, List.append_nil]
        split
        · rw [List.singleton_append]
          refine List.pairwise_cons.2 ⟨fun x hx => ?_, hin⟩
          have := hlen (hs1 x hx)
          exact ⟨this.1.symm, this.2⟩
        · exact hin
      | false =>
        simp only [Bool.false_and, Bool.false_eq_true, if_false, List.nil_append, Bool.not_false, Bool.true_and]
        split
        · refine List.pairwise_append.2 ⟨hin, List.pairwise_singleton _ _, fun x hx y hy => ?_⟩
          obtain rfl : y = inDir d e := by simpa using hy
          have := hlen (hs1 x hx)
          exact ⟨this.1, this.2⟩
        · rw [List.append_nil]; exact hin
    · rw [List.pairwise_map]
      refine (shown_nodup hfs hide d).imp_of_mem ?_
      intro a b ha hb hab x hx y hy
      have form : ∀ e ∈ shown fs hide d, ∀ x, (x ∈ (if pre && m l e then [inDir d e] else []) ++
          (if fs.isDir (inDir d e) && !decide (Dots e) then deep fs m hide pre k (some (inDir d e)) l else []) ++
          (if !pre && m l e then [inDir d e] else [])) → ∃ t, x = inDir d (e ++ t) ∧ (t = [] ∨ t.head? = some '/') := by
        intro e he x hx
        rw [List.mem_append, List.mem_append] at hx
        rcases hx with (hx | hx) | hx
        · split at hx
          · exact ⟨[], by simpa using hx, .inl rfl⟩
          · cases hx
        · obtain ⟨t, h⟩ := hself e he x hx
          refine ⟨'/' :: t, ?_, .inr rfl⟩
          have hn := names_of hfs hide he
          rw [h, (inDir_inDir (d := d) hn.1 (nosep_last hn.2) t).2]
        · split at hx
          · exact ⟨[], by simpa using hx, .inl rfl⟩
          · cases hx
      obtain ⟨t, rfl, ht⟩ := form a ha x hx
      obtain ⟨u, rfl, hu⟩ := form b hb y hy
      have hna := (names_of hfs hide ha).2
      have hnb := (names_of hfs hide hb).2
      have slash : ∀ {t z : List Char}, (t = [] ∨ t.head? = some '/') → (t ++ '/' :: z = [] ∨ (t ++ '/' :: z).head? = some '/') := by
        rintro t z (rfl | h)
        · exact .inr rfl
        · cases t with
          | nil => cases h
          | cons c t => exact .inr h
      refine ⟨fun h => hab ?_, ?_⟩
      · exact name_cancel hna hnb ht hu (by simpa using inDir_cancel (x := []) (by simpa using h))
      · cases pre with
        | true =>
          rintro ⟨z, h⟩
          have := inDir_cancel h
          rw [List.append_assoc] at this
          exact hab (name_cancel hna hnb ht (slash hu) this)
        | false =>
          rintro ⟨z, h⟩
          have := inDir_cancel h
          rw [List.append_assoc] at this
          exact hab (name_cancel hnb hna hu (slash ht) this).symm

end

/-! ### The search -/

theorem any_wild (p : List Char) : p.any isWild = true ↔ WildIn p := by
  rw [joker_iff, List.any_eq_true]

theorem inDir_root (r : List Char) : inDir (some ['/']) r = '/' :: r := rfl

/-- A pattern finds exactly the files that match, level by level, in the order of the directories; in a search of the first file, the first of
these.  Partial: a pattern with jokers must not be the name of a file (`C55_literal`), and separators must not be doubled. -/
theorem C55_find_partial (fs : FileSys) (hfs : FileSysLaws fs) (fl : SearchFlags) (hr : fl.recursive = false) (pat : List Char) (n : Nat)
    (hn : pat.length < n) (h1 : OneSep pat) (hd : fl.dirMode = true → fs.isDir pat = false)
    (hx : WildIn pat → fs.isReg pat = false ∧ fs.isDir pat = false) :
    searchTop fs fl n pat =
      .ok (if fl.first then (matching fs (wildMatch true fl.utf8) fl.noPseudo pat).take 1
        else matching fs (wildMatch true fl.utf8) fl.noPseudo pat) := by
  have htop : ((fl.dirMode || fl.recursive) && fs.isDir pat) = false := by
    rw [hr]
    cases hm : fl.dirMode with
    | false => rfl
    | true => simp [hd hm]
  have hroot : ∀ r, pat = '/' :: r → r.head? ≠ some '/' ∧ OneSep r := by
    rintro r rfl
    exact (OneSep.right (t := []) h1).symm
  unfold searchTop
  rw [if_neg (by rw [htop]; simp)]
  by_cases hj : WildIn pat
  · rw [if_neg (by simp [hx hj]), if_neg (by rw [(any_wild pat).2 hj]; simp)]
    by_cases h0 : pat.head? = some '/'
    · obtain ⟨r, rfl⟩ : ∃ r, pat = '/' :: r := by
        cases pat with
        | nil => cases h0
        | cons c r => cases h0; exact ⟨r, rfl⟩
      have hr2 := hroot r rfl
      rw [if_pos ⟨rfl, hr2.1⟩]
      simp only [List.drop_one, List.tail_cons, matching]
      simp only [List.length_cons] at hn
      cases hf : fl.first with
      | true => rw [searchIn_first hfs hr hf n _ r (by omega) hr2.2 hr2.1]; rfl
      | false => rw [searchIn_levels hfs hr hf n _ r [] (by omega) hr2.2 hr2.1]; rfl
    · rw [if_neg (fun h => h0 h.1)]
      have hm : matching fs (wildMatch true fl.utf8) fl.noPseudo pat =
          selected fs (wildMatch true fl.utf8) fl.noPseudo (here fs (wildMatch true fl.utf8) fl.noPseudo) none (levels pat) := by
        unfold matching
        split
        · exact absurd rfl h0
        · rfl
      rw [hm]
      cases hf : fl.first with
      | true => rw [searchIn_first hfs hr hf n _ pat hn h1 h0]; rfl
      | false => rw [searchIn_levels hfs hr hf n _ pat [] hn h1 h0]; rfl
  · have hw : ∀ c ∈ pat, isWild c = false := by
      intro c hc
      cases h : isWild c with
      | false => rfl
      | true => exact absurd ((joker_iff pat).2 ⟨c, hc, h⟩) hj
    have hm : matching fs (wildMatch true fl.utf8) fl.noPseudo pat = if fs.isReg pat || fs.isDir pat then [pat] else [] := by
      unfold matching
      split
      · next r =>
        have hr2 := hroot r rfl
        rw [selected_text hfs _ _ r (fun c hc => hw c (by simp [hc])) hr2.2 hr2.1]
        rfl
      · next h =>
        rw [selected_text hfs _ _ pat hw h1]
        · rfl
        · intro h0
          cases pat with
          | nil => cases h0
          | cons c r => cases h0; exact h r rfl
    rw [hm, if_pos (c := (!pat.any isWild) = true) (by simpa using fun c hc => hw c hc)]
    cases fs.isReg pat <;> cases fs.isDir pat <;> simp

/-- The contents of a directory: what DIR and DEL do for the name of a directory. -/
theorem C55_contents (fs : FileSys) (hfs : FileSysLaws fs) (fl : SearchFlags) (hr : fl.recursive = false) (hm : fl.dirMode = true)
    (pat : List Char) (hd : fs.isDir pat = true) (n : Nat) (hn : 1 < n) :
    searchTop fs fl n pat =
      .ok (if fl.first then ((shown fs fl.noPseudo (some pat)).map (inDir (some pat))).take 1
        else (shown fs fl.noPseudo (some pat)).map (inDir (some pat))) := by
  have hs : selected fs (wildMatch true fl.utf8) fl.noPseudo (here fs (wildMatch true fl.utf8) fl.noPseudo) (some pat) (levels ['*']) =
      (shown fs fl.noPseudo (some pat)).map (inDir (some pat)) := by
    show here fs _ _ (some pat) ['*'] = _
    rw [here, if_pos (by decide)]
    congr 1
    refine List.filter_eq_self.2 fun e he => ?_
    have := names_of hfs _ he
    cases e with
    | nil => exact absurd rfl this.1
    | cons c r => simp [wildMatch]
  unfold searchTop
  rw [if_pos (by simp [hm, hd])]
  simp only [hm, Bool.not_true, Bool.false_and, Bool.false_eq_true, if_false, List.isEmpty_nil, Bool.and_false]
  rw [← hs]
  cases hf : fl.first with
  | true => rw [searchIn_first hfs hr hf n _ ['*'] hn (by decide) (by decide)]; rfl
  | false => rw [searchIn_levels hfs hr hf n _ ['*'] [] hn (by decide) (by decide)]; rfl

/-- In a search of subdirectories, the levels but the last select directories, and all files that match the last level in and below these are
found (`C55_below`), each directory after what is inside it, or before with a callback.  Partial: the last level has a joker (`C55_name_below`); the
pattern is not the name of a file (`C55_literal`); separators are not doubled. -/
theorem C55_recursive_partial (fs : FileSys) (hfs : FileSysLaws fs) (fl : SearchFlags) (hr : fl.recursive = true) (hf : fl.first = false)
    (k : Nat) (hk : ∀ d, Depth fs k d) (pat : List Char) (n : Nat) (hn : pat.length + k < n) (h1 : OneSep pat)
    (hx : fs.isReg pat = false ∧ fs.isDir pat = false) (hj : ∀ l, (levels pat).getLast? = some l → WildIn l) :
    searchTop fs fl n pat = .ok (matchingBelow fs (wildMatch true fl.utf8) fl.noPseudo fl.callback k pat) := by
  have hjp : WildIn pat := by
    have hsub : ∀ s : List Char, ∀ l ∈ levels s, ∀ c ∈ l, c ∈ s := by
      intro s
      induction hn : s.length using Nat.strongRecOn generalizing s with
      | ind n ih =>
      intro l hl c hc
      rcases sep_first s with h | ⟨a, b, rfl, h⟩
      · rw [levels_nosep h] at hl
        obtain rfl : l = s := by simpa using hl
        exact hc
      · rw [levels_sep h] at hl
        rcases List.mem_cons.1 hl with rfl | hl
        · simp [hc]
        · have := ih b.length (by rw [← hn]; simp; omega) b rfl l hl c hc
          simp [this]
    cases hl : (levels pat).getLast? with
    | none => exact absurd (by simpa using hl) (levels_ne_nil pat)
    | some l =>
      obtain ⟨c, hc, hw⟩ := (joker_iff l).1 (hj l hl)
      exact (joker_iff pat).2 ⟨c, hsub pat l (List.mem_of_getLast? hl) c hc, hw⟩
  unfold searchTop
  rw [if_neg (by simp [hx.2]), if_neg (by simp [hx]), if_neg (by rw [(any_wild pat).2 hjp]; simp)]
  by_cases h0 : pat.head? = some '/'
  · obtain ⟨r, rfl⟩ : ∃ r, pat = '/' :: r := by
      cases pat with
      | nil => cases h0
      | cons c r => cases h0; exact ⟨r, rfl⟩
    have hr2 := OneSep.right (t := []) h1
    rw [if_pos ⟨rfl, hr2.2⟩]
    simp only [List.drop_one, List.tail_cons, matchingBelow]
    simp only [List.length_cons] at hn
    rw [searchIn_below hfs hr hf k n hk _ r [] (by omega) hr2.1 hr2.2]
    · rfl
    · intro l hl
      refine hj l ?_
      rw [levels, if_pos rfl, List.getLast?_cons_of_ne_nil (levels_ne_nil r)]
      exact hl
  · rw [if_neg (fun h => h0 h.1), searchIn_below hfs hr hf k n hk _ pat [] hn h1 h0 hj]
    unfold matchingBelow
    split
    · exact absurd rfl h0
    · rfl

/-- The search of subdirectories for the name of a directory gives everything below it, and the directory itself (unless only the contents are asked
for) once: at the end, so that a list of files to remove can be worked off in order. -/
theorem C55_recursive_dir (fs : FileSys) (hfs : FileSysLaws fs) (fl : SearchFlags) (hr : fl.recursive = true) (hf : fl.first = false)
    (k : Nat) (pat : List Char) (hk : Depth fs k (some pat)) (hd : fs.isDir pat = true) (h0 : pat.getLast? ≠ some '/') (n : Nat) (hn : k < n)
    (hc : fl.callback = false) :
    ∃ r, searchTop fs fl n pat = .ok (if fl.dirMode then r else r ++ [pat]) ∧
      (∀ x, x ∈ r ↔ ∃ d e, Below fs (some pat) d ∧ e ∈ shown fs fl.noPseudo d ∧ x = inDir d e) ∧
      (r ++ [pat]).Pairwise fun a b => a ≠ b ∧ ¬ Within b a := by
  refine ⟨deep fs (wildMatch true fl.utf8) fl.noPseudo fl.callback k (some pat) ['*'], ?_, ?_, ?_⟩
  · unfold searchTop
    rw [if_pos (by simp [hr, hd]), hc]
    simp only [Bool.and_false, Bool.false_eq_true, if_false, List.isEmpty_nil, Bool.not_true, Bool.not_false, Bool.and_true]
    rw [searchIn_deep hfs hr hf k n _ ['*'] [] hn (by decide) (by decide) hk, hc]
    cases fl.dirMode <;> simp
  · intro x
    rw [C55_below _ _ _ _ _ _ hk]
    constructor
    · rintro ⟨d, e, h1, h2, -, h4⟩
      exact ⟨d, e, h1, h2, h4⟩
    · rintro ⟨d, e, h1, h2, h4⟩
      refine ⟨d, e, h1, h2, ?_, h4⟩
      have := names_of hfs _ h2
      cases e with
      | nil => exact absurd rfl this.1
      | cons c r => simp [wildMatch]
  · rw [hc]
    refine List.pairwise_append.2 ⟨(deep_ordered hfs _ _ false k _ _).imp (fun h => by simpa [Ordered] using h), List.pairwise_singleton _ _, ?_⟩
    intro x hx y hy
    obtain rfl : y = pat := by simpa using hy
    obtain ⟨e, t, -, rfl, -⟩ := deep_form hfs _ _ _ k _ _ x hx
    have : inDir (some y) (e ++ t) = y ++ '/' :: (e ++ t) := by simp [inDir, h0]
    rw [this]
    refine ⟨fun h => ?_, ?_⟩
    · have := congrArg List.length h; simp at this
    · rintro ⟨z, h⟩
      have := congrArg List.length h
      simp at this

/-! ### Violations -/

/-- A pattern with jokers which is also the name of a file finds that file only. -/
theorem C55_literal (fs : FileSys) (hfs : FileSysLaws fs) (fl : SearchFlags) (n : Nat) (pat : List Char) (h : fs.isReg pat = true) :
    searchTop fs fl n pat = .ok [pat] := by
  unfold searchTop
  rw [if_neg (by simp [hfs.one _ h]), if_pos (by simp [h])]

/-- A name without jokers is not searched in subdirectories: `DIR /S name` finds nothing below the directory. -/
theorem C55_name_below (fs : FileSys) (fl : SearchFlags) (n : Nat) (pat : List Char) (hj : ¬ WildIn pat) (hd : fs.isDir pat = false) :
    searchTop fs fl n pat = .ok (if fs.isReg pat then [pat] else []) := by
  unfold searchTop
  rw [if_neg (by simp [hd]), hd]
  simp only [Bool.false_or]
  split
  · rfl
  · rw [if_pos (by
      cases h : pat.any isWild with
      | false => rfl
      | true => exact absurd ((any_wild pat).1 h) hj)]

/-! ### A file system -/

/-- A file system given by its files and the contents of its directories. -/
def treeFs (regs : List (List Char)) (dirs : List (List Char × List (List Char))) : FileSys where
  isReg p := regs.contains p
  isDir p := (dirs.map (·.1)).contains p
  list p := dirs.lookup p

theorem lookup_mem {p : List Char} {es : List (List Char)} {dirs : List (List Char × List (List Char))} (h : dirs.lookup p = some es) :
    (p, es) ∈ dirs := by
  induction dirs with
  | nil => cases h
  | cons d ds ih =>
    rw [List.lookup_cons] at h
    split at h
    · next hb =>
      cases h
      have : p = d.1 := by simpa using hb
      subst this
      exact .head _
    · exact .tail _ (ih h)

theorem treeFs_laws (regs : List (List Char)) (dirs : List (List Char × List (List Char)))
    (h1 : ∀ p ∈ regs, p ∉ dirs.map (·.1)) (h2 : ∀ d ∈ dirs, d.2.Nodup ∧ ∀ e ∈ d.2, e ≠ [] ∧ '/' ∉ e)
    (h3 : ∀ p ∈ regs ++ dirs.map (·.1), ∀ i ∈ List.range p.length, i ≠ 0 → p[i]? = some '/' → p.take i ∈ dirs.map (·.1)) :
    FileSysLaws (treeFs regs dirs) where
  one p h := by
    simp only [treeFs, List.contains_eq_mem, decide_eq_true_eq, decide_eq_false_iff_not] at h ⊢
    exact h1 p h
  listed p h := by
    cases hl : dirs.lookup p with
    | none => exact absurd hl h
    | some es => simpa [treeFs] using ⟨es, lookup_mem hl⟩
  name p es h := (h2 _ (lookup_mem h)).2
  nodup p es h := (h2 _ (lookup_mem h)).1
  parent p e h0 h := by
    have hm : p ++ '/' :: e ∈ regs ++ dirs.map (·.1) := by
      rcases h with h | h
      · exact List.mem_append_left _ (by simpa [treeFs] using h)
      · refine List.mem_append_right _ ?_
        simp only [treeFs, List.contains_eq_mem, decide_eq_true_eq] at h
        exact h
    have := h3 _ hm p.length (by simp) (by simpa using h0) (by simp)
    rw [List.take_left] at this
    simp only [treeFs, List.contains_eq_mem, decide_eq_true_eq]
    exact this

/-- `a*` and `ab` in the current directory, with a directory `b` in which there are `a2` and a directory `c` with `a3`, and `null`, which is neither
a file nor a directory. -/
def someFs : FileSys := treeFs [['a', '*'], ['a', 'b'], ['b', '/', 'a', '2'], ['b', '/', 'c', '/', 'a', '3']]
  [(['.'], [['.'], ['.', '.'], ['a', '*'], ['b'], ['a', 'b']]), (['b'], [['.'], ['.', '.'], ['a', '2'], ['c'], ['n', 'u', 'l', 'l']]),
   (['b', '/', 'c'], [['.'], ['.', '.'], ['a', '3']])]

theorem someFs_laws : FileSysLaws someFs := treeFs_laws _ _ (by decide) (by decide) (by decide)

theorem treeFs_depth (regs : List (List Char)) (dirs : List (List Char × List (List Char))) (p : List Char) (hp : p ∉ dirs.map (·.1)) (k : Nat) :
    Depth (treeFs regs dirs) (k + 1) (some p) := by
  intro e he
  exfalso
  have : dirs.lookup p = none := by
    cases hl : dirs.lookup p with
    | none => rfl
    | some es => exact absurd (List.mem_map_of_mem (f := (·.1)) (lookup_mem hl)) hp
  simp [namesIn, treeFs, this] at he

/-- Fewer than three directories one in the other. -/
theorem someFs_depth (d : Option (List Char)) : Depth someFs 3 d := by
  have hc : ∀ k, Depth someFs (k + 1) (some ['b', '/', 'c']) := by
    intro k e he h1 h2
    exfalso
    have : ∀ e ∈ namesIn someFs (some ['b', '/', 'c']), ¬ Dots e → ¬ someFs.isDir (inDir (some ['b', '/', 'c']) e) = true := by decide
    exact this e he h1 h2
  have hb : ∀ k, Depth someFs (k + 2) (some ['b']) := by
    intro k e he h1 h2
    have : ∀ e ∈ namesIn someFs (some ['b']), ¬ Dots e → someFs.isDir (inDir (some ['b']) e) = true → inDir (some ['b']) e = ['b', '/', 'c'] := by
      decide
    rw [this e he h1 h2]
    exact hc k
  have hdot : ∀ k, Depth someFs (k + 2) (some ['.']) := by
    intro k e he h1 h2
    exfalso
    have : ∀ e ∈ namesIn someFs (some ['.']), ¬ Dots e → ¬ someFs.isDir (inDir (some ['.']) e) = true := by decide
    exact this e he h1 h2
  cases d with
  | none =>
    intro e he h1 h2
    have : ∀ e ∈ namesIn someFs none, ¬ Dots e → someFs.isDir (inDir none e) = true → inDir none e = ['b'] := by decide
    rw [this e he h1 h2]
    exact hb 0
  | some p =>
    by_cases h1 : p = ['.']
    · subst h1; exact hdot 1
    · by_cases h2 : p = ['b']
      · subst h2; exact hb 1
      · by_cases h3 : p = ['b', '/', 'c']
        · subst h3; exact hc 2
        · exact treeFs_depth _ _ _ (by simp [h1, h2, h3]) 2

/-- Cases meeting the hypotheses, with what is found. -/
example : OneSep "b/?*".toList ∧ WildIn "b/?*".toList ∧ someFs.isReg "b/?*".toList = false ∧ someFs.isDir "b/?*".toList = false ∧
    (∀ l, (levels "b/?*".toList).getLast? = some l → WildIn l) ∧
    matching someFs (wildMatch true true) true "b/?*".toList = [['b', '/', 'a', '2'], ['b', '/', 'n', 'u', 'l', 'l']] ∧
    matching someFs (wildMatch true true) true "?/a*".toList = [['b', '/', 'a', '2']] ∧
    matchingBelow someFs (wildMatch true true) true false 3 "b/a*".toList = [['b', '/', 'c', '/', 'a', '3'], ['b', '/', 'a', '2']].reverse := by
  refine ⟨by decide, by decide, by decide, by decide, ?_, by decide +kernel, by decide +kernel, by decide +kernel⟩
  intro l hl
  have : l = ['?', '*'] := by simpa [levels] using hl.symm
  subst this
  decide

example : searchTop someFs { recursive := true, noPseudo := true } 9 ['b'] =
    .ok [['b', '/', 'a', '2'], ['b', '/', 'c', '/', 'a', '3'], ['b', '/', 'c'], ['b', '/', 'n', 'u', 'l', 'l'], ['b']] := by decide +kernel

/-- `DIR a*` shows `a*` only, although `ab` matches; `DIR /S a3` finds nothing, although `a3` is below; the name `b/null` of what is neither a file nor a
directory finds nothing, although `b/nul?` finds it. -/
theorem C55_violations :
    (['a', 'b'] ∈ matching someFs (wildMatch true true) true ['a', '*'] ∧ searchTop someFs {} 9 ['a', '*'] = .ok [['a', '*']]) ∧
    (['b', '/', 'c', '/', 'a', '3'] ∈ matchingBelow someFs (wildMatch true true) true false 3 ['a', '3'] ∧
      searchTop someFs { recursive := true } 9 ['a', '3'] = .ok []) ∧
    (searchTop someFs {} 9 ['b', '/', 'n', 'u', 'l', '?'] = .ok [['b', '/', 'n', 'u', 'l', 'l']] ∧
      searchTop someFs {} 9 ['b', '/', 'n', 'u', 'l', 'l'] = .ok []) := by decide +kernel

end PBat
