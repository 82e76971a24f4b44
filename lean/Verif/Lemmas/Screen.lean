import Verif.Spec.Screen
import Verif.Lemmas.LineRun
/-
Lemmas on what the terminal shows while a line is edited.
-/
namespace PBat.Scr
open PBat.Spec PBat.Spec.Scr

variable {u : CharTables}

theorem width_cases (wide : Nat → Bool) (ch : List Nat) : width wide ch = 1 ∨ width wide ch = 2 := by
  unfold width; split <;> simp

theorem spot_ge (cols : Nat) (p : Nat × Nat) (w : Nat) : p.1 < (spot cols p w).1 ∨ spot cols p w = p := by
  unfold spot; split <;> simp

theorem spot_room {cols : Nat} (p : Nat × Nat) {w : Nat} (h : w ≤ cols) : (spot cols p w).2 + w ≤ cols := by
  unfold spot; split <;> simp_all

/-- What is written from `p` on is not before `p`. -/
theorem seen_ge (wide : Nat → Bool) (cols : Nat) (chs : List (List Nat)) (p : Nat × Nat) (x y : Nat) (h : seen wide cols p chs x y ≠ none) :
    p.1 < x ∨ x = p.1 ∧ p.2 ≤ y := by
  induction chs generalizing p with
  | nil => exact absurd rfl h
  | cons ch chs ih =>
    simp only [seen] at h
    rcases spot_ge cols p (width wide ch) with hs | hs
    · split at h
      · omega
      · have := ih _ h
        simp only at this
        omega
    · rw [hs] at h
      split at h
      · omega
      · have := ih _ h
        simp only at this
        omega

/-- What is written from `p` on is not below the row where the cursor ends. -/
theorem seen_le (wide : Nat → Bool) (cols : Nat) (chs : List (List Nat)) (p : Nat × Nat) (x y : Nat) (h : seen wide cols p chs x y ≠ none) :
    x ≤ (after wide cols p chs).1 := by
  induction chs generalizing p with
  | nil => exact absurd rfl h
  | cons ch chs ih =>
    simp only [seen] at h
    simp only [after]
    split at h
    · rename_i hx
      have : ∀ (l : List (List Nat)) (q : Nat × Nat), q.1 ≤ (after wide cols q l).1 := by
        intro l
        induction l with
        | nil => intro q; exact Nat.le_refl _
        | cons c l ih =>
          intro q
          refine Nat.le_trans ?_ (ih _)
          rcases spot_ge cols q (width wide c) with hs | hs
          · exact Nat.le_of_lt hs
          · rw [hs]; exact Nat.le_refl _
      rw [hx.1]
      exact this chs ((spot cols p (width wide ch)).1, (spot cols p (width wide ch)).2 + width wide ch)
    · exact ih _ h

/-- The terminal after a text. -/
theorem put_all (wide : Nat → Bool) (chs : List (List Nat)) (t : Term) (hp : ∀ ch ∈ chs, Printable (ch.headD 0)) :
    let t' := chs.foldl (Term.put wide) t
    t'.cols = t.cols ∧ (t'.row, t'.col) = after wide t.cols (t.row, t.col) chs ∧
    ∀ x y, t'.cell x y = (seen wide t.cols (t.row, t.col) chs x y).or (t.cell x y) := by
  induction chs generalizing t with
  | nil => exact ⟨rfl, rfl, fun x y => by simp [seen]⟩
  | cons ch chs ih =>
    obtain ⟨h1, h2, h3⟩ := ih (t.put wide ch) (fun c hc => hp c (List.mem_cons_of_mem _ hc))
    have hq : t.put wide ch = { t with
        cell := fun x y => if x = (spot t.cols (t.row, t.col) (width wide ch)).1 ∧ (spot t.cols (t.row, t.col) (width wide ch)).2 ≤ y ∧
          y < (spot t.cols (t.row, t.col) (width wide ch)).2 + width wide ch then some (ch, y - (spot t.cols (t.row, t.col) (width wide ch)).2) else t.cell x y
        row := (spot t.cols (t.row, t.col) (width wide ch)).1
        col := (spot t.cols (t.row, t.col) (width wide ch)).2 + width wide ch } := by
      rw [Term.put, if_pos (hp ch List.mem_cons_self)]
    rw [hq] at h1 h2 h3
    simp only [List.foldl_cons, hq]
    refine ⟨h1, h2, fun x y => ?_⟩
    rw [h3 x y]
    simp only [seen]
    by_cases hh : x = (spot t.cols (t.row, t.col) (width wide ch)).1 ∧ (spot t.cols (t.row, t.col) (width wide ch)).2 ≤ y ∧
        y < (spot t.cols (t.row, t.col) (width wide ch)).2 + width wide ch
    · rw [if_pos hh, if_pos hh]
      have hn : seen wide t.cols ((spot t.cols (t.row, t.col) (width wide ch)).1, (spot t.cols (t.row, t.col) (width wide ch)).2 + width wide ch) chs x y = none := by
        apply Classical.byContradiction
        intro hc
        have := seen_ge _ _ _ _ _ _ hc
        simp only at this
        omega
      rw [hn]
      rfl
    · rw [if_neg hh, if_neg hh]

/-- Writing the blank part: what the loop of `refreshMultiLine` clears, going up. -/
theorem clear_rows (n : Nat) (t : Term) : ∃ t', Draws u t ((List.replicate n [TermOp.cr, .clear, .up 1]).flatten) t' ∧ t'.cols = t.cols ∧
    t'.row = t.row - n ∧
    ∀ x y, t'.cell x y = if t.row - n < x ∧ x ≤ t.row ∨ x = 0 ∧ t.row < n then none else t.cell x y := by
  induction n generalizing t with
  | zero =>
    refine ⟨t, .nil, rfl, rfl, fun x y => ?_⟩
    rw [if_neg (by omega)]
  | succ n ih =>
    let t1 : Term := { t with col := 0 }
    let t2 : Term := { t1 with cell := fun x y => if x = t1.row ∧ t1.at ≤ y then none else t1.cell x y }
    let t3 : Term := { t2 with row := t2.row - 1, col := t2.at }
    obtain ⟨t', h1, h2, h3, h4⟩ := ih t3
    refine ⟨t', ?_, h2, ?_, fun x y => ?_⟩
    · rw [List.replicate_succ, List.flatten_cons]
      exact .cons .cr (.cons .clear (.cons .up h1))
    · rw [h3]; show t.row - 1 - n = _; omega
    · rw [h4 x y]
      show (if t.row - 1 - n < x ∧ x ≤ t.row - 1 ∨ x = 0 ∧ t.row - 1 < n then none else if x = t.row ∧ min 0 (t.cols - 1) ≤ y then none else t.cell x y) = _
      by_cases hx : x = t.row
      · rw [if_pos (c := x = t.row ∧ min 0 (t.cols - 1) ≤ y) ⟨hx, by omega⟩, ite_self]
        rw [if_pos (by omega)]
      · rw [if_neg (c := x = t.row ∧ min 0 (t.cols - 1) ≤ y) (fun h => hx h.1)]
        by_cases hc : t.row - 1 - n < x ∧ x ≤ t.row - 1 ∨ x = 0 ∧ t.row - 1 < n
        · rw [if_pos hc, if_pos (by omega)]
        · rw [if_neg hc, if_neg (by omega)]

theorem draws_append {t t1 t2 : Term} {a b : List TermOp} (h1 : Draws u t a t1) (h2 : Draws u t1 b t2) : Draws u t (a ++ b) t2 := by
  induction h1 with
  | nil => exact h2
  | cons h _ ih => exact .cons h (ih h2)

/-! ### The columns the editor counts -/

theorem nextGlyph_char (u : CharTables) {ch rest : List Nat} (hc : OneChar u.comb ch) (hg : ∀ c ∈ ch ++ rest, Scalar c) (hr : Starts u.comb rest) :
    nextGlyph u (uniText (ch ++ rest)) = .ok ((uniText ch).length, some (width u.wide ch)) := by
  obtain ⟨b, ms, rfl, hb, hm⟩ := hc
  simp only [nextGlyph, List.cons_append, uniText_cons]
  rw [utf8Code_uni b (hg b (by simp)).2]
  simp only [hb, List.drop_left]
  rw [skipMarks_text u ms hm (fun x hx => hg x (by simp [hx])) rest hr (fun x hx => hg x (by simp [hx]))]
  · simp [Res.ok_bind, width]
  · rw [uniText_append]; simp; omega

theorem flatten_starts {mark : Nat → Bool} {chs : List (List Nat)} (h : ∀ ch ∈ chs, OneChar mark ch) : Starts mark chs.flatten := by
  cases chs with
  | nil => intro c hc; simp at hc
  | cons ch chs => exact oneChar_starts (h ch (by simp)) _

/-- One round of `columns`. -/
theorem columns_cons (u : CharTables) (cols : Nat) {ch : List Nat} {rest : List (List Nat)} (hone : ∀ c ∈ ch :: rest, OneChar u.comb c)
    (hg : ∀ c ∈ (ch :: rest).flatten, Scalar c) (fuel off ret wid pos : Nat) :
    columns u cols pos (fuel + 1) (uniText (ch :: rest).flatten) off ret wid =
      if off ≥ pos then .ok (if wid + width u.wide ch > cols then ret + (wid + width u.wide ch - cols) else ret)
      else columns u cols pos fuel (uniText rest.flatten) (off + (uniText ch).length)
        ((if wid + width u.wide ch > cols then ret + (wid + width u.wide ch - cols) else ret) + width u.wide ch)
        (if wid + width u.wide ch > cols then width u.wide ch else if wid + width u.wide ch = cols then 0 else wid + width u.wide ch) := by
  have h1 := hone ch (by simp)
  have hne : uniText (ch :: rest).flatten ≠ [] := by
    rw [ne_eq, uniText_eq_nil]
    simp [oneChar_ne h1]
  rw [columns, if_neg hne, List.flatten_cons,
    nextGlyph_char u h1 (by simpa using hg) (flatten_starts (fun c hc => hone c (List.mem_cons_of_mem _ hc)))]
  simp only [uniText_append, List.drop_left]

/-- The columns of the character behind the cursor. -/
def ahead (wide : Nat → Bool) : List (List Nat) → Nat
  | [] => 0
  | ch :: _ => width wide ch

/-- A position and the number of columns up to it. -/
theorem columns_text (u : CharTables) (cols : Nat) (hc : 3 ≤ cols) (before behind : List (List Nat))
    (hone : ∀ ch ∈ before ++ behind, OneChar u.comb ch) (hg : ∀ c ∈ (before ++ behind).flatten, Scalar c) (fuel off ret wid pos base : Nat) (p : Nat × Nat)
    (hp : p.2 ≤ cols) (hw : wid = if p.2 = cols then 0 else p.2) (hr : base + ret = p.1 * cols + p.2)
    (hpos : pos = off + (uniText before.flatten).length) (hf : (uniText (before ++ behind).flatten).length ≤ fuel) :
    ∃ v, columns u cols pos fuel (uniText (before ++ behind).flatten) off ret wid = .ok v ∧
      base + v = (spot cols (after u.wide cols p before) (ahead u.wide behind)).1 * cols + (spot cols (after u.wide cols p before) (ahead u.wide behind)).2 := by
  have hmul : (p.1 + 1) * cols = p.1 * cols + cols := Nat.succ_mul _ _
  induction before generalizing fuel off ret wid p with
  | nil =>
    cases behind with
    | nil =>
      refine ⟨ret, ?_, ?_⟩
      · cases fuel <;> simp [columns, uniText]
      · show _ = (spot cols p 0).1 * cols + (spot cols p 0).2
        have : spot cols p 0 = p := by rw [spot, if_neg (by omega)]
        rw [this, hr]
    | cons ch rest =>
      have hl : 0 < (uniText ([] ++ ch :: rest).flatten).length := by
        rw [List.length_pos_iff, ne_eq, uniText_eq_nil]
        simp [oneChar_ne (hone ch (by simp))]
      obtain ⟨fuel, rfl⟩ : ∃ f, fuel = f + 1 := ⟨fuel - 1, by omega⟩
      rw [List.nil_append] at hg ⊢
      rw [columns_cons u cols (by simpa using hone) hg, if_pos (by simp [hpos, uniText])]
      refine ⟨_, rfl, ?_⟩
      have hspot : spot cols p (width u.wide ch) = if p.2 + width u.wide ch > cols then (p.1 + 1, 0) else p := rfl
      show base + _ = (spot cols p (width u.wide ch)).1 * cols + (spot cols p (width u.wide ch)).2
      rw [hspot]
      have hw2 := width_cases u.wide ch
      by_cases hcc : p.2 = cols
      · rw [if_pos hcc] at hw
        rw [if_neg (by omega), if_pos (by omega)]
        simp only
        omega
      · rw [if_neg hcc] at hw
        by_cases hx : wid + width u.wide ch > cols
        · rw [if_pos hx, if_pos (by omega)]
          simp only
          omega
        · rw [if_neg hx, if_neg (by omega)]
          omega
  | cons ch before ih =>
    have h1 := hone ch (by simp)
    have hl : 0 < (uniText ch).length := by
      rw [List.length_pos_iff, ne_eq, uniText_eq_nil]
      exact oneChar_ne h1
    have hlen : (uniText (ch :: before ++ behind).flatten).length = (uniText ch).length + (uniText (before ++ behind).flatten).length := by
      simp [uniText_append]
    have hlen2 : (uniText (ch :: before).flatten).length = (uniText ch).length + (uniText before.flatten).length := by
      simp [uniText_append]
    obtain ⟨fuel, rfl⟩ : ∃ f, fuel = f + 1 := ⟨fuel - 1, by omega⟩
    rw [List.cons_append] at hg ⊢
    rw [columns_cons u cols (rest := before ++ behind) (by simpa using hone) hg, if_neg (by omega)]
    have hw2 := width_cases u.wide ch
    have hspot : spot cols p (width u.wide ch) = if p.2 + width u.wide ch > cols then (p.1 + 1, 0) else p := rfl
    simp only [after]
    refine ih (fun c hc => hone c (by simp at hc ⊢; grind)) (fun c hc => hg c (by simp at hc ⊢; grind)) fuel _ _ _ _ ?_ ?_ ?_ (by omega) (by omega) (Nat.succ_mul _ _)
    · exact spot_room p (by omega)
    · rw [hspot]
      by_cases hcc : p.2 = cols
      · rw [if_pos hcc] at hw
        rw [if_neg (by omega), if_pos (c := p.2 + width u.wide ch > cols) (by omega)]
        simp only
        split <;> split <;> omega
      · rw [if_neg hcc] at hw
        by_cases hx : wid + width u.wide ch > cols
        · rw [if_pos hx, if_pos (c := p.2 + width u.wide ch > cols) (by omega), if_neg (by simp only; omega)]
          simp only
          omega
        · rw [if_neg hx, if_neg (c := p.2 + width u.wide ch > cols) (by omega)]
          split <;> split <;> omega
    · rw [hspot]
      by_cases hcc : p.2 = cols
      · rw [if_pos hcc] at hw
        rw [if_neg (by omega), if_pos (by omega)]
        simp only
        omega
      · rw [if_neg hcc] at hw
        by_cases hx : wid + width u.wide ch > cols
        · rw [if_pos hx, if_pos (by omega)]
          simp only
          omega
        · rw [if_neg hx, if_neg (by omega)]
          simp only
          omega

/-! ### One display of the line -/

/-- what `refresh` writes first: it goes to the first row of the line and clears the others -/
def clearing (l : LnState) : List TermOp :=
  (if l.maxrows > (l.plen + l.oldcol + l.cols) / l.cols then [TermOp.down (l.maxrows - (l.plen + l.oldcol + l.cols) / l.cols)] else []) ++
    (List.replicate (l.maxrows - 1) [TermOp.cr, .clear, .up 1]).flatten

/-- then it clears the first row behind the prompt -/
def clearing1 (l : LnState) : List TermOp := if l.plen = 0 then [TermOp.cr, .clear] else [TermOp.cr, .right l.plen, .clear]

/-- whether the line ends a row and the cursor is behind it -/
def wraps (l : LnState) (v : Nat) : Prop := l.pos ≠ 0 ∧ l.pos = l.buf.length ∧ (v + l.plen) % l.cols = 0

instance (l : LnState) (v : Nat) : Decidable (wraps l v) := inferInstanceAs (Decidable (_ ∧ _))

/-- the rows of the line -/
def rowsOf (l : LnState) (v v2 : Nat) : Nat :=
  if wraps l v2 then (l.plen + v + l.cols - 1) / l.cols + 1 else (l.plen + v + l.cols - 1) / l.cols

/-- at last it puts the cursor in its place -/
def placing (l : LnState) (v v2 : Nat) : List TermOp :=
  (if wraps l v2 then [TermOp.nl, .cr] else []) ++
  ((if rowsOf l v v2 > (l.plen + v2 + l.cols) / l.cols then [TermOp.up (rowsOf l v v2 - (l.plen + v2 + l.cols) / l.cols)] else []) ++
  (if (l.plen + v2) % l.cols ≠ 0 then [TermOp.cr, .right ((l.plen + v2) % l.cols)] else [TermOp.cr]))

theorem refresh_eq (u : CharTables) (l : LnState) {v v2 : Nat} (hc : l.cols ≠ 0) (h1 : columns u l.cols l.buf.length l.buf.length l.buf 0 0 l.plen = .ok v)
    (h2 : columns u l.cols l.pos l.buf.length l.buf 0 0 l.plen = .ok v2) :
    refresh u l = .ok { l with
      oldcol := v2, maxrows := max (rowsOf l v v2) (max ((l.plen + v + l.cols - 1) / l.cols) l.maxrows),
      out := l.out ++ (clearing l ++ (clearing1 l ++ (TermOp.text l.buf :: placing l v v2))) } := by
  rw [refresh, h1, Res.ok_bind]
  dsimp only
  rw [if_neg hc, h2, Res.ok_bind]
  simp only [clearing, clearing1, placing, rowsOf, wraps, List.append_assoc, List.cons_append, List.nil_append]
  rfl

/-- The terminal when the rows of the line below the first are cleared and the cursor is on the first. -/
structure Home (t : Term) (l : LnState) (R : Nat) (A : Nat → Nat → Cell) : Prop where
  cols : t.cols = l.cols
  row : t.row = R
  keep : ∀ x y, x < R ∨ x = R ∧ y < l.plen → t.cell x y = A x y
  blank : ∀ x y, R < x → t.cell x y = none

/-- The terminal between two keys. -/
structure Inv (t : Term) (l : LnState) (R : Nat) (A : Nat → Nat → Cell) : Prop where
  cols : t.cols = l.cols
  row : t.row = R + (l.plen + l.oldcol) / l.cols
  high : (l.plen + l.oldcol) / l.cols + 1 ≤ max l.maxrows 1
  keep : ∀ x y, x < R ∨ x = R ∧ y < l.plen → t.cell x y = A x y
  blank : ∀ x y, R + max l.maxrows 1 ≤ x → t.cell x y = none

theorem rpos_eq {l : LnState} (hc : l.cols ≠ 0) : (l.plen + l.oldcol + l.cols) / l.cols = (l.plen + l.oldcol) / l.cols + 1 :=
  Nat.add_div_right _ (by omega)

/-- The way to the first row. -/
theorem inv_home {t : Term} {l : LnState} {R : Nat} {A : Nat → Nat → Cell} (hc : l.cols ≠ 0) (h : Inv t l R A) :
    ∃ t', Draws u t (clearing l) t' ∧ Home t' l R A := by
  have hk := h.high
  have hrow := h.row
  rw [clearing, rpos_eq hc]
  generalize (l.plen + l.oldcol) / l.cols = k at hk hrow
  have hdown : ∃ t1, Draws u t (if l.maxrows > k + 1 then [TermOp.down (l.maxrows - (k + 1))] else []) t1 ∧ t1.cols = t.cols ∧ t1.cell = t.cell ∧
      t1.row = R + (max l.maxrows 1 - 1) := by
    by_cases hd : l.maxrows > k + 1
    · rw [if_pos hd]
      exact ⟨_, .cons .down .nil, rfl, rfl, by show t.row + _ = _; omega⟩
    · rw [if_neg hd]
      exact ⟨t, .nil, rfl, rfl, by omega⟩
  obtain ⟨t1, d1, e1, e2, e3⟩ := hdown
  obtain ⟨t2, d2, f1, f2, f3⟩ := clear_rows (u := u) (l.maxrows - 1) t1
  refine ⟨t2, draws_append d1 d2, by rw [f1, e1, h.cols], by omega, fun x y hxy => ?_, fun x y hx => ?_⟩
  · rw [f3, if_neg (by omega), e2]
    exact h.keep x y hxy
  · rw [f3]
    by_cases hb : R + max l.maxrows 1 ≤ x
    · rw [e2, h.blank x y hb, ite_self]
    · rw [if_pos (by omega)]

/-- The same after the screen was cleared. -/
theorem cls_home (t : Term) {l : LnState} (hc : l.cols ≠ 0) (ht : t.cols = l.cols) :
    ∃ t', Draws u t (TermOp.cls :: clearing l) t' ∧ Home t' l 0 (fun _ _ => none) := by
  rw [clearing, rpos_eq hc]
  generalize (l.plen + l.oldcol) / l.cols = k
  have hdown : ∃ t1, Draws u { t with cell := fun _ _ => none, row := 0, col := 0 } (if l.maxrows > k + 1 then [TermOp.down (l.maxrows - (k + 1))] else []) t1 ∧
      t1.cols = t.cols ∧ (t1.cell = fun _ _ => none) ∧ t1.row ≤ l.maxrows - 1 := by
    by_cases hd : l.maxrows > k + 1
    · rw [if_pos hd]
      exact ⟨_, .cons .down .nil, rfl, rfl, by show 0 + _ ≤ _; omega⟩
    · rw [if_neg hd]
      exact ⟨_, .nil, rfl, rfl, Nat.zero_le _⟩
  obtain ⟨t1, d1, e1, e2, e3⟩ := hdown
  obtain ⟨t2, d2, f1, f2, f3⟩ := clear_rows (u := u) (l.maxrows - 1) t1
  refine ⟨t2, .cons .cls (draws_append d1 d2), by rw [f1, e1, ht], by omega, fun x y hxy => ?_, fun x y hx => ?_⟩
  · rw [f3, e2, ite_self]
  · rw [f3, e2, ite_self]

/-- The rest of the first row. -/
theorem draw_first {t : Term} {l : LnState} (ht : t.cols = l.cols) (hp : l.plen < l.cols) :
    Draws u t (clearing1 l) { t with cell := fun x y => if x = t.row ∧ l.plen ≤ y then none else t.cell x y, col := l.plen } := by
  unfold clearing1
  by_cases h0 : l.plen = 0
  · rw [if_pos h0]
    have hd : Draw u { t with col := 0 } .clear _ := .clear
    have e : ({ ({ t with col := 0 } : Term) with cell := fun x y => if x = t.row ∧ ({ t with col := 0 } : Term).at ≤ y then none else t.cell x y } : Term) =
        { t with cell := fun x y => if x = t.row ∧ l.plen ≤ y then none else t.cell x y, col := l.plen } := by
      simp [Term.at, h0]
    rw [e] at hd
    exact .cons .cr (.cons hd .nil)
  · rw [if_neg h0]
    have hr : Draw u { t with col := 0 } (.right l.plen) _ := .right
    have e1 : ({ ({ t with col := 0 } : Term) with col := min (t.cols - 1) (({ t with col := 0 } : Term).at + l.plen) } : Term) = { t with col := l.plen } := by
      simp only [Term.at, Term.mk.injEq, true_and]
      omega
    rw [e1] at hr
    have hd : Draw u { t with col := l.plen } .clear _ := .clear
    have e2 : ({ ({ t with col := l.plen } : Term) with cell := fun x y => if x = t.row ∧ ({ t with col := l.plen } : Term).at ≤ y then none else t.cell x y } : Term) =
        { t with cell := fun x y => if x = t.row ∧ l.plen ≤ y then none else t.cell x y, col := l.plen } := by
      have : min l.plen (t.cols - 1) = l.plen := by omega
      simp only [Term.at, this]
    rw [e2] at hd
    exact .cons .cr (.cons hr (.cons hd .nil))

theorem after_append (wide : Nat → Bool) (cols : Nat) (p : Nat × Nat) (a b : List (List Nat)) :
    after wide cols p (a ++ b) = after wide cols (after wide cols p a) b := by
  induction a generalizing p with
  | nil => rfl
  | cons ch a ih => exact ih _

theorem after_ge (wide : Nat → Bool) (cols : Nat) (l : List (List Nat)) (q : Nat × Nat) : q.1 ≤ (after wide cols q l).1 := by
  induction l generalizing q with
  | nil => exact Nat.le_refl _
  | cons c l ih =>
    refine Nat.le_trans ?_ (ih _)
    rcases spot_ge cols q (width wide c) with hs | hs
    · exact Nat.le_of_lt hs
    · rw [hs]; exact Nat.le_refl _

theorem after_room (wide : Nat → Bool) {cols : Nat} (hc : 2 ≤ cols) (l : List (List Nat)) (q : Nat × Nat) (hq : q.2 ≤ cols) :
    (after wide cols q l).2 ≤ cols := by
  induction l generalizing q with
  | nil => exact hq
  | cons c l ih =>
    apply ih
    have := width_cases wide c
    exact spot_room q (by omega)

theorem after_pos (wide : Nat → Bool) (cols : Nat) (l : List (List Nat)) (q : Nat × Nat) (hq : l ≠ [] ∨ 1 ≤ q.2) :
    1 ≤ (after wide cols q l).2 := by
  induction l generalizing q with
  | nil => simpa [after] using hq
  | cons c l ih =>
    apply ih
    right
    have := width_cases wide c
    show 1 ≤ _ + _
    omega

/-- The cursor is not below the end of the line. -/
theorem spot_le (wide : Nat → Bool) (cols : Nat) (p : Nat × Nat) (a b : List (List Nat)) (hp : (after wide cols p a).2 ≤ cols) :
    (spot cols (after wide cols p a) (ahead wide b)).1 ≤ (after wide cols p (a ++ b)).1 := by
  rw [after_append]
  cases b with
  | nil =>
    have : spot cols (after wide cols p a) 0 = after wide cols p a := by rw [spot, if_neg (by omega)]
    simp only [ahead, this]
    exact Nat.le_refl _
  | cons ch b => exact after_ge wide cols b ((spot cols (after wide cols p a) (width wide ch)).1, (spot cols (after wide cols p a) (width wide ch)).2 + width wide ch)

theorem mul_add_div' (d c n : Nat) : (d * n + c) / n = d + c / n ∨ n = 0 := by
  by_cases h : n = 0
  · exact .inr h
  · left
    rw [Nat.add_comm, Nat.add_mul_div_right _ _ (by omega), Nat.add_comm]

theorem div_between {m n c : Nat} (h1 : c * n ≤ m) (h2 : m < (c + 1) * n) : m / n = c := by
  have hn : 0 < n := by
    rcases Nat.eq_zero_or_pos n with h | h
    · subst h; simp at h2
    · exact h
  apply Nat.le_antisymm
  · exact Nat.lt_succ_iff.1 ((Nat.div_lt_iff_lt_mul hn).2 h2)
  · exact (Nat.le_div_iff_mul_le hn).2 h1

theorem mod_between {m n c : Nat} (h1 : c * n ≤ m) (h2 : m < (c + 1) * n) : m % n = m - c * n := by
  have := Nat.div_add_mod m n
  rw [div_between h1 h2, Nat.mul_comm] at this
  omega

/-- The cursor goes to its place: `d` rows and `c` columns of the end, `d2` and `c2` of the cursor, counted by the editor from the first row. -/
theorem draw_place {t : Term} {l : LnState} {v v2 R d c d2 c2 : Nat} (hcols : 3 ≤ l.cols) (ht : t.cols = l.cols) (hrow : t.row = R + d) (htc : t.col = c)
    (hv : l.plen + v = d * l.cols + c) (hv2 : l.plen + v2 = d2 * l.cols + c2) (hc : c ≤ l.cols) (hc2 : c2 ≤ l.cols) (hd : d2 ≤ d)
    (hcd : c = 0 → d = 0 ∧ l.buf = [])
    (hw : wraps l v2 ↔ c2 = l.cols) (hww : c2 = l.cols → d2 = d ∧ c = l.cols) :
    ∃ t', Draws u t (placing l v v2) t' ∧ t'.cols = t.cols ∧ t'.cell = t.cell ∧
      (t'.row, t'.col) = (if c2 = l.cols then (R + d + 1, 0) else (R + d2, c2)) ∧
      (l.plen + v2) / l.cols + 1 ≤ max (rowsOf l v v2) 1 ∧ t'.row = R + (l.plen + v2) / l.cols ∧ (c ≠ 0 → d + 1 ≤ rowsOf l v v2) := by
  have hrows0 : (l.plen + v + l.cols - 1) / l.cols = if c = 0 then 0 else d + 1 := by
    rw [hv]
    by_cases h0 : c = 0
    · rw [if_pos h0, (hcd h0).1]
      apply div_between <;> simp <;> omega
    · rw [if_neg h0]
      apply div_between <;> (try simp only [Nat.succ_mul]) <;> omega
  unfold placing
  by_cases hwr : c2 = l.cols
  · obtain ⟨rfl, h2⟩ := hww hwr
    have hr : rowsOf l v v2 = d2 + 2 := by
      rw [rowsOf, if_pos (hw.2 hwr), hrows0, if_neg (by omega)]
    have hrp : (l.plen + v2) / l.cols = d2 + 1 := by
      rw [hv2]; apply div_between <;> (try simp only [Nat.succ_mul]) <;> omega
    have hrm : (l.plen + v2) % l.cols = 0 := by
      rw [hv2, mod_between (c := d2 + 1)] <;> (try simp only [Nat.succ_mul]) <;> omega
    have hrp2 : (l.plen + v2 + l.cols) / l.cols = d2 + 2 := by
      rw [Nat.add_div_right _ (by omega), hrp]
    rw [if_pos (hw.2 hwr), hr, hrp2, if_neg (by omega), hrm, if_neg (by simp), hrp, if_pos hwr]
    refine ⟨_, .cons .nl (.cons .cr (.cons .cr .nil)), rfl, rfl, ?_, by omega, ?_, by omega⟩
    · show (t.row + 1, 0) = _
      rw [hrow]
    · show t.row + 1 = _
      omega
  · have hnw : ¬ wraps l v2 := fun h => hwr (hw.1 h)
    have hr : rowsOf l v v2 = if c = 0 then 0 else d + 1 := by
      rw [rowsOf, if_neg hnw, hrows0]
    have hrp : (l.plen + v2) / l.cols = d2 := by
      rw [hv2]; apply div_between <;> (try simp only [Nat.succ_mul]) <;> omega
    have hrm : (l.plen + v2) % l.cols = c2 := by
      rw [hv2, mod_between (c := d2)] <;> (try simp only [Nat.succ_mul]) <;> omega
    have hrp2 : (l.plen + v2 + l.cols) / l.cols = d2 + 1 := by
      rw [Nat.add_div_right _ (by omega), hrp]
    rw [if_neg hnw, hrp2, hrm, hrp, if_neg hwr, List.nil_append]
    have hup : ∃ t1, Draws u t (if rowsOf l v v2 > d2 + 1 then [TermOp.up (rowsOf l v v2 - (d2 + 1))] else []) t1 ∧ t1.cols = t.cols ∧ t1.cell = t.cell ∧
        t1.row = R + d2 := by
      rw [hr]
      by_cases h0 : c = 0
      · rw [if_pos h0, if_neg (by omega)]
        have := (hcd h0).1
        exact ⟨t, .nil, rfl, rfl, by omega⟩
      · rw [if_neg h0]
        by_cases hx : d + 1 > d2 + 1
        · rw [if_pos hx]
          exact ⟨_, .cons .up .nil, rfl, rfl, by show t.row - _ = _; omega⟩
        · rw [if_neg hx]
          exact ⟨t, .nil, rfl, rfl, by omega⟩
    obtain ⟨t1, g1, g2, g3, g4⟩ := hup
    have hlast : Draws u t1 (if c2 ≠ 0 then [TermOp.cr, .right c2] else [TermOp.cr]) { t1 with col := c2 } := by
      by_cases h0 : c2 = 0
      · rw [if_neg (by simpa using h0), h0]
        exact .cons .cr .nil
      · rw [if_pos h0]
        have hd : Draw u { t1 with col := 0 } (.right c2) _ := .right
        have e : ({ ({ t1 with col := 0 } : Term) with col := min (t1.cols - 1) (({ t1 with col := 0 } : Term).at + c2) } : Term) = { t1 with col := c2 } := by
          simp only [Term.at, Term.mk.injEq, true_and]
          omega
        rw [e] at hd
        exact .cons .cr (.cons hd .nil)
    refine ⟨_, draws_append g1 hlast, g2, g3, ?_, ?_, g4, ?_⟩
    · show (t1.row, c2) = _
      rw [g4]
    · rw [hr]
      by_cases h0 : c = 0
      · rw [if_pos h0]
        have := (hcd h0).1
        omega
      · rw [if_neg h0]; omega
    · intro h0
      rw [hr, if_neg h0]
      exact Nat.le_refl _

/-- One display of the line, from the first row on. -/
theorem home_shown {t : Term} {l : LnState} {R : Nat} {A : Nat → Nat → Cell} (h : Home t l R A) (hcols : 3 ≤ l.cols) (hp : l.plen < l.cols)
    {before behind : List (List Nat)} (hbuf : l.buf = uniText (before ++ behind).flatten) (hpos : l.pos = (uniText before.flatten).length)
    (hone : ∀ ch ∈ before ++ behind, OneChar u.comb ch) (hg : ∀ c ∈ (before ++ behind).flatten, Scalar c)
    (hpr : ∀ ch ∈ before ++ behind, Printable (ch.headD 0)) :
    ∃ l' ops t', refresh u l = .ok l' ∧ l'.out = l.out ++ (clearing l ++ ops) ∧ Draws u t ops t' ∧ Inv t' l' R A ∧
      Shows u.wide t' A (R, l.plen) before behind := by
  -- the end of the line
  obtain ⟨v, hv1, hv2⟩ := columns_text u l.cols hcols (before ++ behind) [] (by simpa using hone) (by simpa using hg) l.buf.length 0 0 l.plen l.buf.length
    (R * l.cols + l.plen) (R, l.plen) (Nat.le_of_lt hp) (by rw [if_neg (by simp only; omega)]) rfl (by rw [hbuf]; simp) (by rw [hbuf]; simp)
  rw [List.append_nil, ← hbuf] at hv1
  -- the cursor
  obtain ⟨w, hw1, hw2⟩ := columns_text u l.cols hcols before behind hone hg l.buf.length 0 0 l.plen l.pos
    (R * l.cols + l.plen) (R, l.plen) (Nat.le_of_lt hp) (by rw [if_neg (by simp only; omega)]) rfl (by rw [hpos]; simp) (by rw [hbuf]; exact Nat.le_refl _)
  rw [← hbuf] at hw1
  have hEroom := after_room u.wide (cols := l.cols) (by omega) (before ++ behind) (R, l.plen) (Nat.le_of_lt hp)
  have hBroom := after_room u.wide (cols := l.cols) (by omega) before (R, l.plen) (Nat.le_of_lt hp)
  have hEge := after_ge u.wide l.cols (before ++ behind) (R, l.plen)
  have hBge := after_ge u.wide l.cols before (R, l.plen)
  have hle := spot_le u.wide l.cols (R, l.plen) before behind hBroom
  have hE0 : spot l.cols (after u.wide l.cols (R, l.plen) (before ++ behind)) (ahead u.wide []) = after u.wide l.cols (R, l.plen) (before ++ behind) := by
    rw [spot, if_neg (by simp only [ahead]; omega)]
  rw [hE0] at hv2
  have hEpos := after_pos u.wide l.cols (before ++ behind) (R, l.plen)
  have happ := after_append u.wide l.cols (R, l.plen) before behind
  generalize hE : after u.wide l.cols (R, l.plen) (before ++ behind) = E at *
  generalize hB : after u.wide l.cols (R, l.plen) before = B at *
  have hSge : R ≤ (spot l.cols B (ahead u.wide behind)).1 := by
    rcases spot_ge l.cols B (ahead u.wide behind) with hs | hs
    · exact Nat.le_trans hBge (Nat.le_of_lt hs)
    · rw [hs]; exact hBge
  have hSroom : (spot l.cols B (ahead u.wide behind)).2 + ahead u.wide behind ≤ l.cols := by
    apply spot_room
    cases behind with
    | nil => exact Nat.zero_le _
    | cons ch b => have := width_cases u.wide ch; simp only [ahead]; omega
  have hcur : cursor u.wide l.cols (R, l.plen) before behind =
      if (spot l.cols B (ahead u.wide behind)).2 = l.cols then (E.1 + 1, 0) else ((spot l.cols B (ahead u.wide behind)).1, (spot l.cols B (ahead u.wide behind)).2) := by
    unfold Spec.Scr.cursor
    rw [hB]
    cases behind with
    | nil =>
      have hs : spot l.cols B (ahead u.wide []) = B := by rw [spot, if_neg (by simp only [ahead]; omega)]
      have hEB : E = B := by rw [happ]; rfl
      rw [hs, hEB]
      simp only
      by_cases hf : B.2 = l.cols
      · rw [if_pos hf, spot, if_pos (by omega)]
      · rw [if_neg hf, spot, if_neg (by omega)]
    | cons ch b =>
      have := width_cases u.wide ch
      rw [if_neg (by simp only [ahead] at hSroom ⊢; omega)]
      rfl
  have hmulE : E.1 * l.cols = R * l.cols + (E.1 - R) * l.cols := by
    rw [← Nat.add_mul]; congr 1; omega
  generalize hS : spot l.cols B (ahead u.wide behind) = S at *
  have hmulS : S.1 * l.cols = R * l.cols + (S.1 - R) * l.cols := by
    rw [← Nat.add_mul]; congr 1; omega
  -- the text on the terminal
  have hd1 := draw_first (u := u) (t := t) (l := l) h.cols hp
  generalize ht1 : ({ t with cell := fun x y => if x = t.row ∧ l.plen ≤ y then none else t.cell x y, col := l.plen } : Term) = t1 at hd1
  obtain ⟨k1, k2, k3⟩ := put_all u.wide (before ++ behind) t1 hpr
  have hd2 : Draw u t1 (.text l.buf) ((before ++ behind).foldl (Term.put u.wide) t1) := by
    rw [hbuf]; exact .text _ hone hg
  generalize (before ++ behind).foldl (Term.put u.wide) t1 = t2 at k1 k2 k3 hd2
  have hc1 : t1.cols = l.cols := by rw [← ht1]; exact h.cols
  have hp1 : (t1.row, t1.col) = (R, l.plen) := by rw [← ht1, ← h.row]
  rw [hc1, hp1, hE] at k2
  have hcell : ∀ x y, t2.cell x y = (seen u.wide l.cols (R, l.plen) (before ++ behind) x y).or (t1.cell x y) := by
    intro x y; rw [k3 x y, hc1, hp1]
  have hr2 : t2.row = E.1 := congrArg Prod.fst k2
  have hcc2 : t2.col = E.2 := congrArg Prod.snd k2
  have hempty : l.buf = [] ↔ before ++ behind = [] := by
    rw [hbuf, uniText_eq_nil]
    constructor
    · intro he
      cases hbb : before ++ behind with
      | nil => rfl
      | cons ch r =>
        rw [hbb] at he hone
        simp [oneChar_ne (hone ch (by simp))] at he
    · intro he; rw [he]; rfl
  have hEz : E.2 = 0 → before ++ behind = [] := by
    intro hz
    apply Classical.byContradiction
    intro hne
    have := hEpos (.inl hne)
    omega
  have hwr : wraps l w ↔ S.2 = l.cols := by
    constructor
    · rintro ⟨w1, w2, w3⟩
      have hb0 : behind = [] := by
        apply Classical.byContradiction
        intro hne
        have h1 : l.buf.length = l.pos + (uniText behind.flatten).length := by
          rw [hbuf, hpos, List.flatten_append, uniText_append, List.length_append]
        have h2 : uniText behind.flatten = [] := List.eq_nil_of_length_eq_zero (by omega)
        rw [uniText_eq_nil] at h2
        cases behind with
        | nil => exact hne rfl
        | cons ch b => simp [oneChar_ne (hone ch (by simp))] at h2
      subst hb0
      have hs : S = B := by rw [← hS, spot, if_neg (by simp only [ahead]; omega)]
      have hEB : E = B := by rw [happ]; rfl
      have hz : E.2 ≠ 0 := by
        intro hz
        have := hEz hz
        rw [List.append_nil] at this
        rw [hpos, this] at w1
        simp [uniText] at w1
      rw [hs, ← hEB]
      apply Classical.byContradiction
      intro hne
      rw [Nat.add_comm, mod_between (c := S.1 - R), ← Nat.add_zero (_ - _)] at w3
      · rw [hs, ← hEB] at hw2 hmulS w3; omega
      · omega
      · simp only [Nat.succ_mul]; rw [hs, ← hEB] at hw2 hmulS ⊢; omega
    · intro hf
      have hb0 : behind = [] := by
        cases behind with
        | nil => rfl
        | cons ch b => have := width_cases u.wide ch; simp only [ahead] at hSroom; omega
      subst hb0
      refine ⟨?_, ?_, ?_⟩
      · intro hz
        rw [hpos] at hz
        have h0 := List.eq_nil_of_length_eq_zero hz
        rw [uniText_eq_nil] at h0
        have hbe : before = [] := by
          cases before with
          | nil => rfl
          | cons ch b => simp [oneChar_ne (hone ch (by simp))] at h0
        subst hbe
        have : B = (R, l.plen) := hB.symm
        rw [← hS, this, spot, if_neg (by simp only [ahead]; omega)] at hf
        simp only at hf
        omega
      · rw [hpos, hbuf, List.append_nil]
      · rw [Nat.add_comm, mod_between (c := S.1 - R + 1)]
        · simp only [Nat.succ_mul]; omega
        · simp only [Nat.succ_mul]; omega
        · simp only [Nat.succ_mul]; omega
  have hww : S.2 = l.cols → S.1 - R = E.1 - R ∧ E.2 = l.cols := by
    intro hf
    have hb0 : behind = [] := by
      cases behind with
      | nil => rfl
      | cons ch b => have := width_cases u.wide ch; simp only [ahead] at hSroom; omega
    subst hb0
    have hs : S = B := by rw [← hS, spot, if_neg (by simp only [ahead]; omega)]
    have hEB : E = B := by rw [happ]; rfl
    rw [hEB, ← hs]
    exact ⟨rfl, hf⟩
  obtain ⟨t3, d3, q1, q2, q3, q4, q5, q6⟩ := draw_place (u := u) (t := t2) (l := l) (v := v) (v2 := w) (R := R) (d := E.1 - R) (c := E.2) (d2 := S.1 - R) (c2 := S.2)
    hcols (by rw [k1, hc1]) (by omega) hcc2 (by omega) (by omega) hEroom (by omega) (by omega)
    (fun hz => ⟨by
      have := hEz hz
      rw [this] at hE
      have : E = (R, l.plen) := hE.symm
      rw [this]; simp, hempty.2 (hEz hz)⟩) hwr hww
  refine ⟨_, _, t3, refresh_eq u l (by omega) hv1 hw1, rfl, draws_append hd1 (.cons hd2 d3), ⟨?_, q5, ?_, ?_, ?_⟩, ⟨?_, ?_⟩⟩
  · show t3.cols = l.cols
    rw [q1, k1, hc1]
  · show (l.plen + w) / l.cols + 1 ≤ max (max (rowsOf l v w) _) 1
    omega
  · intro x y hxy
    rw [q2, hcell]
    have hn : seen u.wide l.cols (R, l.plen) (before ++ behind) x y = none := by
      apply Classical.byContradiction
      intro hc
      have := seen_ge _ _ _ _ _ _ hc
      simp only at this hxy
      omega
    rw [hn, Option.none_or, ← ht1]
    simp only at hxy ⊢
    rw [if_neg (by rw [h.row]; omega)]
    exact h.keep x y hxy
  · intro x y hx
    have hx' : R + max (max (rowsOf l v w) (max ((l.plen + v + l.cols - 1) / l.cols) l.maxrows)) 1 ≤ x := hx
    rw [q2, hcell]
    have hn : seen u.wide l.cols (R, l.plen) (before ++ behind) x y = none := by
      apply Classical.byContradiction
      intro hc
      have h1 := seen_le _ _ _ _ _ _ hc
      rw [hE] at h1
      by_cases hz : E.2 = 0
      · rw [hEz hz] at hc; exact hc rfl
      · have := q6 hz; omega
    rw [hn, Option.none_or, ← ht1]
    simp only
    rw [if_neg (by rw [h.row]; omega)]
    exact h.blank x y (by omega)
  · have h3c : t3.cols = l.cols := by rw [q1, k1, hc1]
    rw [h3c, hcur, q3]
    by_cases hf : S.2 = l.cols
    · rw [if_pos hf, if_pos hf]; congr 1; omega
    · rw [if_neg hf, if_neg hf]; congr 1; omega
  · intro x y _
    have h3c : t3.cols = l.cols := by rw [q1, k1, hc1]
    rw [q2, hcell, h3c]
    simp only
    by_cases hxy : x < R ∨ x = R ∧ y < l.plen
    · rw [if_pos hxy]
      have hn : seen u.wide l.cols (R, l.plen) (before ++ behind) x y = none := by
        apply Classical.byContradiction
        intro hc
        have := seen_ge _ _ _ _ _ _ hc
        simp only at this
        omega
      rw [hn, Option.none_or, ← ht1]
      simp only
      rw [if_neg (by rw [h.row]; omega)]
      exact h.keep x y hxy
    · rw [if_neg hxy, ← ht1]
      simp only
      by_cases hr : x = t.row ∧ l.plen ≤ y
      · rw [if_pos hr, Option.or_none]
      · rw [if_neg hr, h.blank x y (by have := h.row; omega), Option.or_none]

/-! ### Characters -/

theorem cut_unique {mark : Nat → Bool} {a b : List (List Nat)} (ha : ∀ ch ∈ a, OneChar mark ch) (hb : ∀ ch ∈ b, OneChar mark ch)
    (h : a.flatten = b.flatten) : a = b := by
  induction a generalizing b with
  | nil =>
    cases b with
    | nil => rfl
    | cons ch b => simp [oneChar_ne (hb ch (by simp))] at h
  | cons ca a ih =>
    cases b with
    | nil => simp [oneChar_ne (ha ca (by simp))] at h
    | cons cb b =>
      have ha' := fun c (hc : c ∈ a) => ha c (List.mem_cons_of_mem _ hc)
      have hb' := fun c (hc : c ∈ b) => hb c (List.mem_cons_of_mem _ hc)
      have key : ca = cb ∧ a.flatten = b.flatten := by
        rw [List.flatten_cons, List.flatten_cons] at h
        obtain ⟨x, xs, rfl, -, hxs⟩ := ha ca (by simp)
        obtain ⟨y, ys, rfl, -, hys⟩ := hb cb (by simp)
        simp only [List.cons_append, List.cons.injEq] at h
        obtain ⟨rfl, h⟩ := h
        rcases List.append_eq_append_iff.1 h with ⟨r, h1, h2⟩ | ⟨r, h1, h2⟩
        · cases r with
          | nil => simp at h1 h2; simp [h1, h2]
          | cons m r =>
            have h3 := hys m (by rw [h1]; simp)
            have h4 := flatten_starts ha' m (by rw [h2]; rfl)
            rw [h3] at h4; simp at h4
        · cases r with
          | nil => simp at h1 h2; simp [h1, h2]
          | cons m r =>
            have h3 := hxs m (by rw [h1]; simp)
            have h4 := flatten_starts hb' m (by rw [h2]; rfl)
            rw [h3] at h4; simp at h4
      rw [key.1, ih ha' hb' key.2]

theorem draw_unique {t t1 t2 : Term} {o : TermOp} (h1 : Draw u t o t1) (h2 : Draw u t o t2) : t1 = t2 := by
  generalize ho : o = o' at h2
  cases h1 with
  | text a ha hga =>
    cases h2 with
    | text b hb hgb =>
      simp only [TermOp.text.injEq] at ho
      rw [cut_unique ha hb (uniText_inj hga hgb ho)]
    | _ => simp at ho
  | _ => cases h2 <;> simp at ho <;> (try subst ho) <;> rfl

/-- What the editor writes leaves the terminal in one state only. -/
theorem draws_unique {t t1 t2 : Term} {os : List TermOp} (h1 : Draws u t os t1) (h2 : Draws u t os t2) : t1 = t2 := by
  induction h1 with
  | nil => cases h2; rfl
  | cons d _ ih =>
    cases h2 with
    | cons d2 r => rw [draw_unique d2 d] at *; exact ih r

theorem exists_chars {mark : Nat → Bool} {cs : List Nat} (h : Starts mark cs) : ∃ chs : List (List Nat), cs = chs.flatten ∧ ∀ ch ∈ chs, OneChar mark ch := by
  induction hn : cs.length using Nat.strongRecOn generalizing cs with
  | _ n ih =>
    by_cases hne : cs = []
    · exact ⟨[], by simp [hne], by simp⟩
    · obtain ⟨ch, r, rfl, hc, hr⟩ := char_split h hne
      have := List.length_pos_iff.2 (oneChar_ne hc)
      obtain ⟨chs, rfl, h2⟩ := ih r.length (by simp at hn; omega) hr rfl
      exact ⟨ch :: chs, by simp, by simpa using ⟨hc, h2⟩⟩

theorem exists_cut {mark : Nat → Bool} {l : EdLine} (h1 : Starts mark (l.before ++ l.after)) (h2 : Starts mark l.after) :
    ∃ before behind, Cut mark l before behind := by
  obtain ⟨a, h3, h4⟩ := exists_chars (starts_left h1)
  obtain ⟨b, h5, h6⟩ := exists_chars h2
  exact ⟨a, b, h3, h5, fun c hc => by rcases List.mem_append.1 hc with h | h; exact h4 c h; exact h6 c h⟩

/-! ### The keys -/

/-- what the display depends on -/
def Same (l m : LnState) : Prop := m.cols = l.cols ∧ m.plen = l.plen ∧ m.oldcol = l.oldcol ∧ m.maxrows = l.maxrows

theorem quiet {k : Key} {l l' : LnState} (hk : k ≠ .redraw) (h : Res.ok l = Res.ok l') :
    k ≠ .redraw ∧ Same l l' ∧ l'.buf = l.buf ∧ l'.pos = l.pos ∧ l'.out = l.out := by
  cases h
  exact ⟨hk, ⟨rfl, rfl, rfl, rfl⟩, rfl, rfl, rfl⟩

/-- A key displays the line, or leaves it as it is. -/
theorem keyFun_shows {k : Key} {l l' : LnState} (h : keyFun u k l = .ok l') :
    (k ≠ .redraw ∧ Same l l' ∧ l'.buf = l.buf ∧ l'.pos = l.pos ∧ l'.out = l.out) ∨
    (k ≠ .redraw ∧ ∃ m, refresh u m = .ok l' ∧ Same l m ∧ m.out = l.out) ∨
    (k = .redraw ∧ ∃ m, refresh u m = .ok l' ∧ Same l m ∧ m.out = l.out ++ [TermOp.cls]) := by
  have shown : ∀ {k : Key} {m : LnState}, k ≠ .redraw → refresh u m = .ok l' → Same l m → m.out = l.out →
      (k ≠ .redraw ∧ ∃ m, refresh u m = .ok l' ∧ Same l m ∧ m.out = l.out) := fun a b c d => ⟨a, _, b, c, d⟩
  have hist : ∀ {d : Bool} {k : Key}, k ≠ .redraw → lnHistory u l d = .ok l' →
      (k ≠ .redraw ∧ Same l l' ∧ l'.buf = l.buf ∧ l'.pos = l.pos ∧ l'.out = l.out) ∨
      (k ≠ .redraw ∧ ∃ m, refresh u m = .ok l' ∧ Same l m ∧ m.out = l.out) := by
    intro d k hk h
    unfold lnHistory at h
    split at h
    · split at h
      · simp at h
      · dsimp only at h
        split at h
        · split at h
          · cases h; exact .inl ⟨hk, ⟨rfl, rfl, rfl, rfl⟩, rfl, rfl, rfl⟩
          · exact .inr (shown hk h ⟨rfl, rfl, rfl, rfl⟩ rfl)
        · split at h
          · cases h; exact .inl ⟨hk, ⟨rfl, rfl, rfl, rfl⟩, rfl, rfl, rfl⟩
          · exact .inr (shown hk h ⟨rfl, rfl, rfl, rfl⟩ rfl)
    · exact .inl (quiet hk h)
  cases k with
  | char c =>
    simp only [keyFun, lnInsert] at h
    split at h
    · split at h
      · exact .inr (.inl (shown (by simp) h ⟨rfl, rfl, rfl, rfl⟩ rfl))
      · exact .inr (.inl (shown (by simp) h ⟨rfl, rfl, rfl, rfl⟩ rfl))
    · exact .inl (quiet (by simp) h)
  | left =>
    simp only [keyFun, lnLeft] at h
    split at h
    · rw [res_bind_eq_ok] at h
      obtain ⟨n, -, h⟩ := h
      exact .inr (.inl (shown (by simp) h ⟨rfl, rfl, rfl, rfl⟩ rfl))
    · exact .inl (quiet (by simp) h)
  | right =>
    simp only [keyFun, lnRight] at h
    split at h
    · rw [res_bind_eq_ok] at h
      obtain ⟨n, -, h⟩ := h
      exact .inr (.inl (shown (by simp) h ⟨rfl, rfl, rfl, rfl⟩ rfl))
    · exact .inl (quiet (by simp) h)
  | home =>
    simp only [keyFun, lnHome] at h
    split at h
    · exact .inr (.inl (shown (by simp) h ⟨rfl, rfl, rfl, rfl⟩ rfl))
    · exact .inl (quiet (by simp) h)
  | «end» =>
    simp only [keyFun, lnEnd] at h
    split at h
    · exact .inr (.inl (shown (by simp) h ⟨rfl, rfl, rfl, rfl⟩ rfl))
    · exact .inl (quiet (by simp) h)
  | backspace =>
    simp only [keyFun, lnBackspace] at h
    split at h
    · rw [res_bind_eq_ok] at h
      obtain ⟨n, -, h⟩ := h
      exact .inr (.inl (shown (by simp) h ⟨rfl, rfl, rfl, rfl⟩ rfl))
    · exact .inl (quiet (by simp) h)
  | delete =>
    simp only [keyFun, lnDelete] at h
    split at h
    · rw [res_bind_eq_ok] at h
      obtain ⟨n, -, h⟩ := h
      exact .inr (.inl (shown (by simp) h ⟨rfl, rfl, rfl, rfl⟩ rfl))
    · exact .inl (quiet (by simp) h)
  | ctrlD =>
    simp only [keyFun, lnDelete] at h
    split at h
    · rw [res_bind_eq_ok] at h
      obtain ⟨n, -, h⟩ := h
      exact .inr (.inl (shown (by simp) h ⟨rfl, rfl, rfl, rfl⟩ rfl))
    · exact .inl (quiet (by simp) h)
  | killLine => exact .inr (.inl (shown (by simp) h ⟨rfl, rfl, rfl, rfl⟩ rfl))
  | killEnd => exact .inr (.inl (shown (by simp) h ⟨rfl, rfl, rfl, rfl⟩ rfl))
  | delWord => exact .inr (.inl (shown (by simp) h ⟨rfl, rfl, rfl, rfl⟩ rfl))
  | swap =>
    simp only [keyFun, lnSwap] at h
    split at h
    · exact .inr (.inl (shown (by simp) h ⟨rfl, rfl, rfl, rfl⟩ rfl))
    · exact .inl (quiet (by simp) h)
  | redraw => exact .inr (.inr ⟨rfl, _, h, ⟨rfl, rfl, rfl, rfl⟩, rfl⟩)
  | up =>
    rcases hist (k := .up) (by simp) h with h | h
    · exact .inl h
    · exact .inr (.inl h)
  | down =>
    rcases hist (k := .down) (by simp) h with h | h
    · exact .inl h
    · exact .inr (.inl h)
  | ignored => exact .inl (quiet (by simp) h)

/-- The state of the editor, the terminal and the line agree. -/
structure Agree (u : CharTables) (t0 t : Term) (l : LnState) (e : Ed) (R : Nat) (A : Nat → Nat → Cell) : Prop where
  rel : EdRel u l e
  cols : 3 ≤ l.cols
  plen : l.plen < l.cols
  inv : Inv t l R A
  drawn : Draws u t0 l.out t
  shows : ∀ before behind, Cut u.comb e.line before behind → Shows u.wide t A (R, l.plen) before behind

theorem inv_same {t : Term} {l m : LnState} {R : Nat} {A : Nat → Nat → Cell} (h : Inv t l R A) (hs : Same l m) : Inv t m R A := by
  obtain ⟨h1, h2, h3, h4⟩ := hs
  refine ⟨?_, ?_, ?_, ?_, ?_⟩
  · rw [h1]; exact h.cols
  · rw [h1, h2, h3]; exact h.row
  · rw [h1, h2, h3, h4]; exact h.high
  · rw [h2]; exact h.keep
  · rw [h4]; exact h.blank

theorem home_same {t : Term} {l m : LnState} {R : Nat} {A : Nat → Nat → Cell} (h : Home t l R A) (h1 : m.cols = l.cols) (h2 : m.plen = l.plen) : Home t m R A := by
  refine ⟨?_, h.row, ?_, h.blank⟩
  · rw [h1]; exact h.cols
  · rw [h2]; exact h.keep

/-- A display from the first row, for the line of the specification. -/
theorem home_agree {t0 t1 : Term} {m l' : LnState} {e : Ed} {R : Nat} {A : Nat → Nat → Cell} (hh : Home t1 m R A) (hcols : 3 ≤ m.cols) (hp : m.plen < m.cols)
    (hr : refresh u m = .ok l') (hrel : EdRel u l' e) (hd : Draws u t0 (m.out ++ clearing m) t1) (hpr : ∀ c ∈ e.line.text, Printable c) :
    ∃ t', Agree u t0 t' l' e R A := by
  obtain ⟨s1, s2, -, -, s3, s4⟩ := refresh_same hr
  obtain ⟨before, behind, c1, c2, c3⟩ := exists_cut hrel.line.2.1 hrel.after
  have htext : e.line.before ++ e.line.after = (before ++ behind).flatten := by rw [c1, c2, List.flatten_append]
  obtain ⟨l2, ops, t', g1, g2, g3, g4, g5⟩ := home_shown (u := u) hh hcols hp (before := before) (behind := behind)
    (by rw [← s1, hrel.buf, htext]) (by rw [← s2, hrel.pos, c1]) c3 (by rw [← htext]; exact hrel.line.1) (fun ch hc => by
      obtain ⟨b, ms, rfl, -, -⟩ := c3 ch hc
      apply hpr
      show _ ∈ e.line.before ++ e.line.after
      rw [htext]
      exact List.mem_flatten.2 ⟨_, hc, by simp⟩)
  rw [hr] at g1
  cases g1
  refine ⟨t', hrel, by rw [s3]; exact hcols, by rw [s3, s4]; exact hp, g4, ?_, ?_⟩
  · rw [g2, ← List.append_assoc]
    exact draws_append hd g3
  · rintro b' a' ⟨d1, d2, d3⟩
    have e1 := cut_unique (fun c hc => c3 c (by simp [hc])) (fun c hc => d3 c (by simp [hc])) (c1.symm.trans d1)
    have e2 := cut_unique (fun c hc => c3 c (by simp [hc])) (fun c hc => d3 c (by simp [hc])) (c2.symm.trans d2)
    rw [s4, ← e1, ← e2]
    exact g5

/-- One key. -/
theorem agree_key {t0 t : Term} {l l' : LnState} {e e' : Ed} {k : Key} {R : Nat} {A : Nat → Nat → Cell} (h : Agree u t0 t l e R A)
    (hk : keyFun u k l = .ok l') (hrel : EdRel u l' e') (hpr : ∀ c ∈ e'.line.text, Printable c) :
    (k ≠ .redraw ∧ ∃ t', Agree u t0 t' l' e' R A) ∨ (k = .redraw ∧ ∃ t', Agree u t0 t' l' e' 0 (fun _ _ => none)) := by
  have hc0 : l.cols ≠ 0 := by have := h.cols; omega
  rcases keyFun_shows hk with ⟨hn, hs, hb, hp, ho⟩ | ⟨hn, m, hr, hs, ho⟩ | ⟨hn, m, hr, hs, ho⟩
  · refine .inl ⟨hn, t, hrel, by rw [hs.1]; exact h.cols, by rw [hs.1, hs.2.1]; exact h.plen, inv_same h.inv hs, by rw [ho]; exact h.drawn, ?_⟩
    intro before behind hcut
    rw [hs.2.1]
    apply h.shows
    have e1 := hrel.take
    have e2 := hrel.drop
    rw [hb, hp] at e1 e2
    have hg := h.rel.line.1
    have hg' := hrel.line.1
    have f1 := uniText_inj (fun c hc => hg c (by simp [hc])) (fun c hc => hg' c (by simp [hc])) (h.rel.take.symm.trans e1)
    have f2 := uniText_inj (fun c hc => hg c (by simp [hc])) (fun c hc => hg' c (by simp [hc])) (h.rel.drop.symm.trans e2)
    obtain ⟨c1, c2, c3⟩ := hcut
    exact ⟨by rw [f1, c1], by rw [f2, c2], c3⟩
  · obtain ⟨t1, d1, hh⟩ := inv_home (u := u) (l := m) (by rw [hs.1]; exact hc0) (inv_same h.inv hs)
    exact .inl ⟨hn, home_agree hh (by rw [hs.1]; exact h.cols) (by rw [hs.1, hs.2.1]; exact h.plen) hr hrel (by rw [ho]; exact draws_append h.drawn d1) hpr⟩
  · obtain ⟨t1, d1, hh⟩ := cls_home (u := u) (l := m) t (by rw [hs.1]; exact hc0) (by rw [hs.1]; exact h.inv.cols)
    exact .inr ⟨hn, home_agree hh (by rw [hs.1]; exact h.cols) (by rw [hs.1, hs.2.1]; exact h.plen) hr hrel
      (by rw [ho, List.append_assoc]; exact draws_append h.drawn d1) hpr⟩

end PBat.Scr
