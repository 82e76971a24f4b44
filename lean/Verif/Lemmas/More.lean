import Verif.Spec.More
import Verif.Lemmas.Eval
/-
Lemmas about MORE.
-/
namespace PBat
open Spec

/-! ### Rows -/

theorem moreLoop_less (o : MoreOpts) (col : Nat) (t : MoreState) (s : List Nat) :
    ∀ r, moreLoop o col t s = .ok r → r.rest.length ≤ s.length ∧ (col < 79 → r.more = true → r.rest.length < s.length) := by
  fun_induction moreLoop o col t s
  all_goals intro r h
  all_goals first
    | (cases h; simp; done)
    | (cases h; done)
    | (rename_i ih; have := ih r h; simp; omega)
    | (rename_i ih
       cases hm : moreLoop _ _ _ _ with
       | ok x =>
         rw [hm] at h
         cases h
         have := ih _ hm
         simp [MoreRow.put]
         first | omega | (have := moreEsc_length ‹List Nat›; omega)
       | ub => rw [hm] at h; cases h
       | hang => rw [hm] at h; cases h)
    | (cases h; simp; omega)

/-- The rows of a file from the beginning of a row. -/
def rowsFrom (o : MoreOpts) (t : MoreState) (s : List Nat) : Res (List (List Nat) × MoreState) := do
  let r ← moreLoop o 0 t s
  if r.more then
    if r.rest.length < s.length then do
      let q ← rowsFrom o r.st r.rest
      .ok (r.out :: q.1, q.2)
    else .hang
  else .ok ([r.out], r.st)
termination_by s.length

/-- The rows of a file from column `col` on. -/
def contFrom (o : MoreOpts) (col : Nat) (t : MoreState) (s : List Nat) : Res (List (List Nat) × MoreState) := do
  let r ← moreLoop o col t s
  if r.more then do
    let q ← rowsFrom o r.st r.rest
    .ok (r.out :: q.1, q.2)
  else .ok ([r.out], r.st)

theorem rowsFrom_eq (o : MoreOpts) (t : MoreState) (s : List Nat) : rowsFrom o t s = contFrom o 0 t s := by
  rw [rowsFrom.eq_1, contFrom]
  cases h : moreLoop o 0 t s with
  | ub => rfl
  | hang => rfl
  | ok r =>
    simp only [Res.ok_bind]
    by_cases hm : r.more = true
    · rw [if_pos hm, if_pos hm, if_pos ((moreLoop_less o 0 t s r h).2 (by omega) hm)]
    · rw [if_neg hm, if_neg hm]

theorem moreFile_rows (o : MoreOpts) (begin : Nat) (t : MoreState) (s : List Nat) :
    moreFile o begin t s = (rowsFrom o t s >>= fun q => .ok ((q.1.drop begin).flatten, q.2)) := by
  induction hn : s.length using Nat.strongRecOn generalizing s t begin with
  | ind n ih =>
    subst hn
    rw [moreFile.eq_1, rowsFrom.eq_1]
    cases h : moreLoop o 0 t s with
    | ub => rfl
    | hang => rfl
    | ok r =>
      simp only [Res.ok_bind]
      by_cases hm : r.more = true
      · have hl := (moreLoop_less o 0 t s r h).2 (by omega) hm
        rw [if_pos hm, if_pos hm, if_pos hl, if_pos hl, ih _ hl _ _ _ rfl]
        cases rowsFrom o r.st r.rest with
        | ub => rfl
        | hang => rfl
        | ok q =>
          simp only [Res.ok_bind]
          cases begin with
          | zero => simp
          | succ n => simp
      · rw [if_neg hm, if_neg hm]
        simp only [Res.ok_bind]
        cases begin with
        | zero => simp
        | succ n => simp

/-- Puts bytes before the first row. -/
def headPut (b : List Nat) : List (List Nat) → List (List Nat)
  | [] => []
  | r :: rs => (b ++ r) :: rs

theorem headPut_nil (rs : List (List Nat)) : headPut [] rs = rs := by cases rs <;> rfl

theorem headPut_append (a b : List Nat) (rs : List (List Nat)) : headPut (a ++ b) rs = headPut a (headPut b rs) := by
  cases rs <;> simp [headPut]

/-- The first rows, then the others. -/
def onto : List Nat → List (List Nat) → List (List Nat) → List (List Nat)
  | r, [], rows => headPut r rows
  | r, r' :: rs, rows => (r ++ [10]) :: onto r' rs rows

theorem onto_put (b r : List Nat) (rs rows : List (List Nat)) : onto (b ++ r) rs rows = headPut b (onto r rs rows) := by
  cases rs with
  | nil => simp [onto, headPut_append]
  | cons r' rs => simp [onto, headPut]

/-- `contFrom` with the rows changed. -/
def Res.rows (f : List (List Nat) → List (List Nat)) (x : Res (List (List Nat) × MoreState)) : Res (List (List Nat) × MoreState) :=
  x >>= fun q => .ok (f q.1, q.2)

theorem Res.rows_rows (f g : List (List Nat) → List (List Nat)) (x : Res (List (List Nat) × MoreState)) :
    (x.rows f).rows g = x.rows fun r => g (f r) := by cases x <;> rfl

theorem Res.rows_id (x : Res (List (List Nat) × MoreState)) : x.rows (fun r => r) = x := by cases x <;> rfl

theorem Res.rows_congr {f g : List (List Nat) → List (List Nat)} (h : ∀ r, f r = g r) (x : Res (List (List Nat) × MoreState)) :
    x.rows f = x.rows g := by rw [show f = g from funext h]

theorem contFrom_put {o : MoreOpts} {col col' : Nat} {t t' : MoreState} {s s' b : List Nat}
    (h : moreLoop o col t s = (moreLoop o col' t' s' >>= fun r => .ok (r.put b))) :
    contFrom o col t s = (contFrom o col' t' s').rows (headPut b) := by
  rw [contFrom, contFrom, h]
  cases moreLoop o col' t' s' with
  | ub => rfl
  | hang => rfl
  | ok r =>
    simp only [Res.ok_bind, MoreRow.put, Res.rows]
    by_cases hm : r.more = true
    · rw [if_pos hm, if_pos hm]
      cases rowsFrom o r.st r.rest <;> rfl
    · rw [if_neg hm, if_neg hm]; rfl

theorem contFrom_end {o : MoreOpts} {col : Nat} {t t' : MoreState} {s s' : List Nat}
    (h : moreLoop o col t s = .ok ⟨true, [10], t', s'⟩) : contFrom o col t s = (contFrom o 0 t' s').rows ([10] :: ·) := by
  rw [contFrom, h]
  simp only [Res.ok_bind, if_true, rowsFrom_eq]
  rfl

theorem contFrom_same {o : MoreOpts} {col col' : Nat} {t t' : MoreState} {s s' : List Nat}
    (h : moreLoop o col t s = moreLoop o col' t' s') : contFrom o col t s = contFrom o col' t' s' := by
  rw [contFrom, contFrom, h]

/-! ### One step -/

theorem cont_full (o : MoreOpts) (t : MoreState) (s : List Nat) :
    contFrom o 79 t s = (contFrom o 0 { t with cr := true } s).rows ([10] :: ·) := by
  apply contFrom_end
  cases s with
  | nil => rw [moreLoop.eq_1, if_neg (by omega)]
  | cons c s => rw [moreLoop.eq_2, if_neg (by omega)]

theorem cont_follow (o : MoreOpts) {col : Nat} (hc : col < 79) (t : MoreState) (b : Bool) (m s : List Nat)
    (h : ∀ c ∈ m, o.u8 = true ∧ 128 ≤ c ∧ c < 192) (ht : t = ⟨b, false⟩) :
    contFrom o col t (m ++ s) = (contFrom o col t s).rows (headPut m) := by
  subst ht
  induction m with
  | nil => rw [List.nil_append, show headPut [] = (fun r => r) from funext headPut_nil, Res.rows_id]
  | cons c m ih =>
    obtain ⟨h1, h2, h3⟩ := h c (by simp)
    rw [List.cons_append, contFrom_put (col' := col) (t' := ⟨b, false⟩) (s' := m ++ s) (b := [c]), ih fun x hx => h x (by simp [hx]), Res.rows_rows]
    · exact Res.rows_congr (fun r => by rw [← headPut_append]; rfl) _
    · rw [moreLoop.eq_2, if_pos hc]
      rw [if_neg (by omega), if_neg (by omega), if_pos ⟨h1, h2, h3⟩]

theorem cont_char (o : MoreOpts) {col : Nat} (hc : col < 79) (t : MoreState) {b : Nat} {m : List Nat} (h : Readable o (.char b m))
    (hf : m ≠ [] → col ≠ 78) (s : List Nat) :
    contFrom o col t (b :: m ++ s) = (contFrom o (col + 1) ⟨false, false⟩ s).rows (headPut (b :: m)) := by
  cases h with
  | char h1 h2 h3 h4 h5 =>
    have key : contFrom o col t (b :: m ++ s) = (contFrom o (col + 1) ⟨false, false⟩ (m ++ s)).rows (headPut [b]) := by
      apply contFrom_put
      rw [List.cons_append, moreLoop.eq_2, if_pos hc]
      rw [if_neg h1, if_neg (fun h => h3 h.1 h.2), if_neg (fun h => h4 h.1 h.2), if_neg h2]
    rw [key]
    by_cases hm : m = []
    · subst hm; rfl
    · have := hf hm
      rw [cont_follow o (by omega) _ false m s h5 rfl, Res.rows_rows]
      exact Res.rows_congr (fun r => by rw [← headPut_append]; rfl) _

theorem moreCsi_eq {p s : List Nat} {c : Nat} (hp : ∀ x ∈ p, ¬ (64 ≤ x ∧ x ≤ 126)) (h1 : 64 ≤ c) (h2 : c ≤ 126) :
    moreCsi (p ++ c :: s) = (p ++ [c], s) := by
  induction p with
  | nil => rw [List.nil_append, moreCsi, if_pos ⟨h1, h2⟩]; rfl
  | cons x p ih =>
    rw [List.cons_append, moreCsi, if_neg (hp x (by simp)), ih fun y hy => hp y (by simp [hy])]
    rfl

theorem cont_code (o : MoreOpts) {col : Nat} (hc : col < 79) (t : MoreState) {b : List Nat} (ha : o.ansi = true) (h : EscapeCode b)
    (s : List Nat) : contFrom o col t (b ++ s) = (contFrom o col ⟨t.blank, false⟩ s).rows (headPut b) := by
  have key : ∀ x, b = 27 :: x → moreEsc (x ++ s) = (x, s) →
      contFrom o col t (b ++ s) = (contFrom o col ⟨t.blank, false⟩ s).rows (headPut b) := by
    rintro x rfl hx
    apply contFrom_put
    rw [List.cons_append, moreLoop.eq_2, if_pos hc]
    rw [if_neg (by omega), if_pos ⟨ha, rfl⟩, hx]
  cases h with
  | @short c hc => exact key [c] rfl (by simp [moreEsc, hc])
  | @csi p c hp h1 h2 =>
    refine key (91 :: (p ++ [c])) rfl ?_
    rw [List.cons_append, moreEsc, if_pos rfl, List.append_assoc]
    rw [show [c] ++ s = c :: s from rfl, moreCsi_eq hp h1 h2]

theorem cont_tab (o : MoreOpts) {col : Nat} (hc : col < 79) (t : MoreState) (h0 : 0 < o.tab)
    (hf : col + tabWidth o.tab.toNat col < 80) (s : List Nat) :
    contFrom o col t (9 :: s) = (contFrom o (col + tabWidth o.tab.toNat col) ⟨false, false⟩ s).rows
      (headPut (List.replicate (tabWidth o.tab.toNat col) 32)) := by
  apply contFrom_put
  rw [moreLoop.eq_2, if_pos hc]
  rw [if_pos rfl, if_neg (by omega)]
  dsimp only
  unfold tabWidth at *
  rw [if_pos hf]

theorem cont_tabEnd (o : MoreOpts) {col : Nat} (hc : col < 79) (t : MoreState) (h0 : 0 < o.tab)
    (hf : ¬ col + tabWidth o.tab.toNat col < 80) (s : List Nat) :
    contFrom o col t (9 :: s) = (contFrom o 0 { t with blank := false } s).rows ([10] :: ·) := by
  apply contFrom_end
  rw [moreLoop.eq_2, if_pos hc]
  rw [if_pos rfl, if_neg (by omega)]
  dsimp only
  unfold tabWidth at hf
  rw [if_neg hf]

/-! ### A line -/

/-- The variables after a line that has been begun with `t`. -/
def afterCells (t : MoreState) : CellLine → MoreState
  | [] => t
  | .code _ :: l => afterCells ⟨t.blank, false⟩ l
  | _ :: l => afterCells ⟨false, false⟩ l

theorem afterCells_cr (t : MoreState) (l : CellLine) (h : t.cr = false ∨ l ≠ []) : (afterCells t l).cr = false := by
  induction l generalizing t with
  | nil => rcases h with h | h; exact h; exact absurd rfl h
  | cons c l ih => cases c <;> exact ih _ (.inl rfl)

theorem afterCells_blank (t : MoreState) (l : CellLine) (h : t.blank = false) : (afterCells t l).blank = false := by
  induction l generalizing t with
  | nil => exact h
  | cons c l ih =>
    cases c with
    | code b => exact ih _ h
    | char b m => exact ih _ rfl
    | tab => exact ih _ rfl

theorem tabWidth_le (t col : Nat) : tabWidth t col ≤ t := by unfold tabWidth; omega

/-- A line, from any column. -/
theorem cont_line (o : MoreOpts) (h0 : 0 < o.tab) (h80 : o.tab < 80) (l : CellLine) (hr : ∀ c ∈ l, Readable o c) (col : Nat) (hc : col ≤ 79)
    (t : MoreState) (hcr : col ≠ 0 → t.cr = false) (hb : col ≠ 0 → t.blank = false) (hf : RowFits o.tab.toNat col l) (s : List Nat) :
    contFrom o col t (l.bytes ++ s) = (contFrom o (endColumn o.tab.toNat col l) (afterCells t l) s).rows
      (onto (lay o.tab.toNat col l).1 (lay o.tab.toNat col l).2) := by
  have full : ∀ (t : MoreState) (x : List Nat), t.blank = false →
      contFrom o 79 t x = (contFrom o 0 ⟨false, true⟩ x).rows ([10] :: ·) := by
    intro t x hb
    rw [cont_full, hb]
  induction l generalizing col t with
  | nil =>
    simp only [CellLine.bytes, List.flatMap_nil, List.nil_append, endColumn, afterCells, lay, onto]
    rw [show headPut [] = (fun r => r) from funext headPut_nil, Res.rows_id]
  | cons c l ih =>
    have hrl : ∀ x ∈ l, Readable o x := fun x hx => hr x (by simp [hx])
    have hbytes : CellLine.bytes (c :: l) ++ s = c.bytes ++ (CellLine.bytes l ++ s) := by
      simp [CellLine.bytes, List.append_assoc]
    rw [hbytes]
    cases c with
    | code b =>
      rw [RowFits] at hf
      cases hr (.code b) (by simp) with
      | code ha he =>
        simp only [Cell.bytes]
        rw [cont_code o (by omega) t ha he, ih hrl col hc ⟨t.blank, false⟩ (fun _ => rfl) hb hf.2, Res.rows_rows]
        simp only [endColumn, afterCells, lay]
        exact Res.rows_congr (fun r => (onto_put _ _ _ _).symm) _
    | char b m =>
      rw [RowFits] at hf
      have hrc := hr (.char b m) (by simp)
      simp only [Cell.bytes]
      by_cases h79 : col = 79
      · subst h79
        rw [if_pos rfl] at hf
        rw [full t _ (hb (by omega)), cont_char o (by omega) _ hrc (by omega), Res.rows_rows,
          ih hrl 1 (by omega) ⟨false, false⟩ (fun _ => rfl) (fun _ => rfl) hf.2, Res.rows_rows]
        simp only [endColumn, afterCells, lay, if_true]
        exact Res.rows_congr (fun r => by rw [onto, onto_put]; rfl) _
      · rw [if_neg h79] at hf
        rw [cont_char o (by omega) _ hrc hf.1,
          ih hrl (col + 1) (by omega) ⟨false, false⟩ (fun _ => rfl) (fun _ => rfl) hf.2, Res.rows_rows]
        simp only [endColumn, afterCells, lay, if_neg h79]
        exact Res.rows_congr (fun r => (onto_put _ _ _ _).symm) _
    | tab =>
      rw [RowFits] at hf
      simp only [Cell.bytes, List.cons_append, List.nil_append]
      have hw0 : tabWidth o.tab.toNat 0 = o.tab.toNat := by simp [tabWidth]
      by_cases h79 : col = 79
      · subst h79
        rw [if_pos rfl] at hf
        rw [full t _ (hb (by omega)), cont_tab o (by omega) _ h0 (by rw [hw0]; omega), Res.rows_rows, Nat.zero_add, hw0,
          ih hrl _ (by omega) ⟨false, false⟩ (fun _ => rfl) (fun _ => rfl) hf, Res.rows_rows]
        simp only [endColumn, afterCells, lay, if_true]
        exact Res.rows_congr (fun r => by rw [onto, onto_put]; rfl) _
      · rw [if_neg h79] at hf
        by_cases hw : col + tabWidth o.tab.toNat col < 80
        · rw [if_pos hw] at hf
          rw [cont_tab o (by omega) _ h0 hw,
            ih hrl _ (by omega) ⟨false, false⟩ (fun _ => rfl) (fun _ => rfl) hf, Res.rows_rows]
          simp only [endColumn, afterCells, lay, if_neg h79, if_pos hw]
          exact Res.rows_congr (fun r => (onto_put _ _ _ _).symm) _
        · rw [if_neg hw] at hf
          have hne : col ≠ 0 := by
            rintro rfl
            rw [hw0] at hw; omega
          have e : ({ t with blank := false } : MoreState) = ⟨false, false⟩ := by rw [hcr hne]
          rw [cont_tabEnd o (by omega) _ h0 hw, e, ih hrl 0 (by omega) ⟨false, false⟩ (fun _ => rfl) (fun _ => rfl) hf, Res.rows_rows]
          simp only [endColumn, afterCells, lay, if_neg h79, if_neg hw]
          exact Res.rows_congr (fun r => by rw [onto]; rfl) _

theorem onto_ended (r : List Nat) (rs rows : List (List Nat)) : onto r rs ([10] :: rows) = ended (r :: rs) ++ rows := by
  induction rs generalizing r with
  | nil => simp [onto, headPut, ended]
  | cons r' rs ih => rw [onto, ih]; simp [ended]

theorem onto_last (r : List Nat) (rs : List (List Nat)) : onto r rs [[]] = endedButLast (r :: rs) := by
  induction rs generalizing r with
  | nil => simp [onto, headPut, endedButLast]
  | cons r' rs ih => rw [onto, ih]; simp [endedButLast]

theorem endColumn_pos (t : Nat) (col : Nat) (l : CellLine) (hc : col ≤ 79) (h : t < 80) : endColumn t col l ≤ 79 := by
  induction l generalizing col with
  | nil => exact hc
  | cons c l ih =>
    cases c with
    | code b => exact ih _ hc
    | char b m => apply ih; split <;> omega
    | tab => apply ih; split; omega; split <;> omega

/-- The end of a line. -/
theorem cont_newline (o : MoreOpts) (e : Nat) (he : e ≤ 79) (h0 : e ≠ 0) (s : List Nat) (t : MoreState) (hb : t.blank = false) (hcr : t.cr = false) :
    contFrom o e t (10 :: s) = (contFrom o 0 ⟨false, e == 79⟩ s).rows ([10] :: ·) := by
  by_cases h79 : e = 79
  · subst h79
    rw [cont_full, hb]
    congr 1
    apply contFrom_same
    rw [moreLoop.eq_2, if_pos (by omega), if_neg (by omega), if_neg (by omega), if_neg (by omega), if_pos rfl, if_pos rfl, if_neg (by simp), if_pos rfl]
    rfl
  · apply contFrom_end
    rw [moreLoop.eq_2, if_pos (by omega), if_neg (by omega), if_neg (by omega), if_neg (by omega), if_pos rfl, if_neg h0]
    simp [hcr, h79]

theorem cont_blank (o : MoreOpts) (s : List Nat) (t : MoreState) (hs : (t.blank && o.squeeze) = false) (hcr : t.cr = false) :
    contFrom o 0 t (10 :: s) = (contFrom o 0 ⟨true, false⟩ s).rows ([10] :: ·) := by
  apply contFrom_end
  rw [moreLoop.eq_2, if_pos (by omega), if_neg (by omega), if_neg (by omega), if_neg (by omega), if_pos rfl, if_pos rfl, if_neg (by simp [hs]),
    if_neg (by simp [hcr]), hcr]

theorem cont_squeezed (o : MoreOpts) (s : List Nat) (t : MoreState) (hs : (t.blank && o.squeeze) = true) :
    contFrom o 0 t (10 :: s) = contFrom o 0 t s := by
  apply contFrom_same
  rw [moreLoop.eq_2, if_pos (by omega), if_neg (by omega), if_neg (by omega), if_neg (by omega), if_pos rfl, if_pos rfl, if_pos hs]

theorem afterCells_wide (w : Nat) (l : CellLine) (t : MoreState) (h : endColumn w 0 l ≠ 0) : (afterCells t l).blank = false := by
  induction l generalizing t with
  | nil => exact absurd rfl h
  | cons c l ih =>
    cases c with
    | code b => exact ih _ h
    | char b m => exact afterCells_blank ⟨false, false⟩ l rfl
    | tab => exact afterCells_blank ⟨false, false⟩ l rfl

/-- The whole file. -/
theorem rows_text (o : MoreOpts) (h0 : 0 < o.tab) (h80 : o.tab < 80) (ls : List CellLine) (last : CellLine)
    (hr : ∀ l ∈ ls, ∀ c ∈ l, Readable o c) (hrl : ∀ c ∈ last, Readable o c)
    (hf : ∀ l ∈ ls, RowFits o.tab.toNat 0 l) (hfl : RowFits o.tab.toNat 0 last) (hend : endColumn o.tab.toNat 0 last ≠ 79)
    (hsq : o.squeeze = true → ∀ l ∈ ls, l ≠ [] → endColumn o.tab.toNat 0 l ≠ 0)
    (t : MoreState) (prev : Bool) (hp : o.squeeze = true → t.blank = prev) (hn : NoneLost o.tab.toNat t.cr ls) :
    ∃ t', contFrom o 0 t (moreText ls last) =
      .ok (ended (shownRows o.tab.toNat o.squeeze prev ls) ++ endedButLast (rowsOf o.tab.toNat last), t') := by
  induction ls generalizing t prev with
  | nil =>
    refine ⟨afterCells t last, ?_⟩
    have h1 : moreText [] last = last.bytes ++ [] := by simp [moreText]
    rw [h1, cont_line o h0 h80 last hrl 0 (by omega) t (by simp) (by simp) hfl []]
    have h2 : contFrom o (endColumn o.tab.toNat 0 last) (afterCells t last) [] = .ok ([[]], afterCells t last) := by
      have := endColumn_pos o.tab.toNat 0 last (by omega) (by omega)
      rw [contFrom, moreLoop.eq_1, if_pos (by omega)]
      rfl
    rw [h2]
    simp only [Res.rows, Res.ok_bind, onto_last, shownRows, ended, List.map_nil, List.nil_append]
    rfl
  | cons l ls ih =>
    have ih := ih (fun x hx => hr x (by simp [hx])) (fun x hx => hf x (by simp [hx])) (fun hs x hx => hsq hs x (by simp [hx]))
    rw [NoneLost] at hn
    have h1 : moreText (l :: ls) last = l.bytes ++ 10 :: moreText ls last := by simp [moreText]
    rw [h1]
    by_cases hl : l = []
    · subst hl
      have hcr : t.cr = false := by
        cases h : t.cr
        · rfl
        · exact absurd rfl (hn.1 h)
      have hn2 : NoneLost o.tab.toNat false ls := by simpa using hn.2
      rw [show CellLine.bytes [] ++ 10 :: moreText ls last = 10 :: moreText ls last from rfl]
      by_cases hq : (o.squeeze && prev) = true
      · have hq' : (t.blank && o.squeeze) = true := by
          simp only [Bool.and_eq_true] at hq ⊢
          exact ⟨by rw [hp hq.1]; exact hq.2, hq.1⟩
        obtain ⟨t', e⟩ := ih t prev hp (by rw [hcr]; exact hn2)
        refine ⟨t', ?_⟩
        rw [cont_squeezed o _ t hq', e, shownRows, if_pos (by simp only [Bool.and_eq_true] at hq ⊢; exact ⟨hq, rfl⟩)]
      · have hq' : (t.blank && o.squeeze) = false := by
          cases hs : o.squeeze
          · simp
          · rw [hp hs]; rw [hs] at hq; simpa using hq
        obtain ⟨t', e⟩ := ih ⟨true, false⟩ true (fun _ => rfl) hn2
        refine ⟨t', ?_⟩
        rw [cont_blank o _ t hq' hcr, e, shownRows, if_neg (by simpa using hq)]
        simp [Res.rows, rowsOf, lay, ended]
    · rw [cont_line o h0 h80 l (hr l (by simp)) 0 (by omega) t (by simp) (by simp) (hf l (by simp))]
      have hcr := afterCells_cr t l (.inr hl)
      have hle := endColumn_pos o.tab.toNat 0 l (by omega) (by omega)
      have hshow : shownRows o.tab.toNat o.squeeze prev (l :: ls) = rowsOf o.tab.toNat l ++ shownRows o.tab.toNat o.squeeze false ls := by
        have : l.isEmpty = false := by simpa using hl
        rw [shownRows, this]
        simp
      by_cases he : endColumn o.tab.toNat 0 l = 0
      · have hs : o.squeeze = false := by
          cases hs : o.squeeze
          · rfl
          · exact absurd he (hsq hs l (by simp) hl)
        have hn2 : NoneLost o.tab.toNat false ls := by
          have := hn.2
          rw [he] at this
          simpa using this
        obtain ⟨t', e⟩ := ih ⟨true, false⟩ false (fun h => by rw [hs] at h; cases h) hn2
        refine ⟨t', ?_⟩
        rw [he, cont_blank o _ _ (by rw [hs]; simp) hcr, e, hshow]
        simp only [Res.rows, Res.ok_bind, onto_ended, rowsOf, ended, List.map_append, List.map_cons, List.cons_append, List.append_assoc]
      · have hn2 : NoneLost o.tab.toNat (endColumn o.tab.toNat 0 l == 79) ls := by
          have := hn.2
          have hd : (endColumn o.tab.toNat 0 l == 79) = decide (endColumn o.tab.toNat 0 l = 79) := by
            rw [Bool.eq_iff_iff]; simp
          rw [hd]
          simpa [hl] using this
        obtain ⟨t', e⟩ := ih ⟨false, endColumn o.tab.toNat 0 l == 79⟩ false (fun _ => rfl) hn2
        refine ⟨t', ?_⟩
        rw [cont_newline o _ hle he _ _ (afterCells_wide _ l t he) hcr, e, hshow]
        simp only [Res.rows, Res.ok_bind, onto_ended, rowsOf, ended, List.map_append, List.map_cons, List.cons_append, List.append_assoc]

end PBat
