import Verif.Props.C74

/-!
C76: the lines entered at the prompt can be called back.
-/

namespace PBat
open Spec

namespace Spec

/-- The lines entered one after the other, with the bytes typed for each and the history they
leave. -/
inductive Entered (mark : Nat → Bool) :
    List (List Nat) → List (List (List Nat)) → List (List Nat) → List (List Nat) → Prop
  | nil {h} : Entered mark h [] [] h
  | cons {h keys e rest ts h'} : EdRun mark (Able mark) (Ed.start h) keys e →
      Entered mark (remember e.kept e.line.text) rest ts h' →
      Entered mark h (keys :: rest) (e.line.text :: ts) h'

/-- The same, when no line is called back meanwhile: the editor is never moved off the line
being written. -/
inductive Written1 (mark : Nat → Bool) :
    List (List Nat) → List (List (List Nat)) → List (List Nat) → List (List Nat) → Prop
  | nil {h} : Written1 mark h [] [] h
  | cons {h keys l rest ts h'} :
      EdRun mark (Able mark) (Ed.start h) keys ⟨l, [], (Ed.start h).older, []⟩ →
      Written1 mark (remember (recallable h) l.text) rest ts h' →
      Written1 mark h (keys :: rest) (l.text :: ts) h'

/-- A list without the elements that repeat the one before. -/
def squeeze : List (List Nat) → List (List Nat)
  | [] => []
  | [t] => [t]
  | t :: t' :: r => if t = t' then squeeze (t' :: r) else t :: squeeze (t' :: r)

/-- What can be called back after the lines `ts`: the last 99 of those that are not empty and do
not repeat the one before. -/
def backlog (ts : List (List Nat)) : List (List Nat) :=
  lastN 99 (squeeze (ts.filter (· ≠ [])))

end Spec

/-! ### Helper lemmas -/

theorem run_holds {u : CharTables} {e e' : Ed} {keys : List (List Nat)}
    (hr : EdRun u.comb (Able u.comb) e keys e') {l : LnState} (h : EdRel u l e) :
    ∃ l', EdRel u l' e' := by
  induction hr generalizing l with
  | nil => exact ⟨l, h⟩
  | cons ht ha hs _ ih =>
    obtain ⟨⟨l1, -, h2⟩, -⟩ := keyFun_step h ha hs (typed_char ht)
    exact ih h2

theorem remember_ok {u : CharTables} {hist : List (List Nat)} (hh : ∀ t ∈ hist, LineOk u.comb t)
    (hlen : hist.length ≤ 100) {keys : List (List Nat)} {e : Ed}
    (hr : EdRun u.comb (Able u.comb) (Ed.start hist) keys e) :
    (∀ t ∈ remember e.kept e.line.text, LineOk u.comb t) ∧
      (remember e.kept e.line.text).length ≤ 100 := by
  obtain ⟨l, h⟩ := run_holds hr (start_rel u (cols := 1) (by omega) 0 hh hlen)
  have hsm := h.small
  have hk : e.kept.length ≤ 99 := by
    unfold Ed.kept; simp; omega
  have hko : ∀ t ∈ e.kept, LineOk u.comb t := by
    intro t ht
    have := List.dropLast_subset _ ht
    simp only [List.append_assoc, List.mem_append, List.mem_reverse, List.mem_singleton] at this
    rcases this with h1 | h1 | h1
    · exact h.entries t (by simp [h1])
    · subst h1; exact h.stored
    · exact h.entries t (by simp [h1])
  unfold remember
  split
  · exact ⟨hko, by omega⟩
  · refine ⟨?_, by simp; omega⟩
    intro t ht
    simp only [List.mem_append, List.mem_singleton] at ht
    rcases ht with ht | ht
    · exact hko t ht
    · subst ht; exact h.line

/-- The lines entered at a sequence of prompts are handed over in order, each as its keys
describe it, and the history grows by them.  Missing: what `C74_edit_partial` lacks. -/
theorem C76_lines_partial (u : CharTables) (complete : List Nat → Reply)
    {h h' : List (List Nat)} {keys : List (List (List Nat))} {ts : List (List Nat)}
    (he : Entered u.comb h keys ts h') (hh : ∀ t ∈ h, LineOk u.comb t) (hlen : h.length ≤ 100)
    {dims : List (Nat × Nat)} (hd : dims.length = ts.length) (hc : ∀ d ∈ dims, 0 < d.1)
    (rest : List Nat) :
    lnReads u complete dims (h.map uniText)
        ((keys.map fun ks => ks.flatten ++ [13]).flatten ++ rest) =
      .ok (ts.map fun t => some (uniText t), h'.map uniText, rest) := by
  induction he generalizing dims with
  | nil =>
    obtain rfl := List.eq_nil_of_length_eq_zero hd
    rfl
  | @cons h keys e krest ts h' hr _ ih =>
    cases dims with
    | nil => simp at hd
    | cons d dims =>
      have hcd := hc d (by simp)
      obtain ⟨h1, h2⟩ := remember_ok hh hlen hr
      have hone := C74_edit_partial u complete hcd d.2 hh hlen hr
        ((krest.map fun ks => ks.flatten ++ [13]).flatten ++ rest)
      have hrest := ih h1 h2 (dims := dims) (by simpa using hd) (fun x hx => hc x (by simp [hx]))
      simp only [lnReads, List.map_cons, List.flatten_cons, List.append_assoc,
        List.singleton_append, List.cons_append, List.nil_append]
      rw [hone]
      simp only [Res.ok_bind]
      rw [hrest]
      rfl

theorem lastN_length {α} (n : Nat) (l : List α) : (lastN n l).length ≤ n := by
  unfold lastN; rw [List.length_drop]; omega

theorem lastN_of_le {α} {n : Nat} {l : List α} (h : l.length ≤ n) : lastN n l = l := by
  unfold lastN
  have : l.length - n = 0 := by omega
  rw [this, List.drop_zero]

theorem lastN_getLast? {α} {n : Nat} (hn : 0 < n) (l : List α) :
    (lastN n l).getLast? = l.getLast? := by
  unfold lastN
  cases hl : l with
  | nil => simp
  | cons x r =>
    rw [List.getLast?_drop]
    rw [if_neg]
    simp; omega

theorem lastN_append_one {α} {n : Nat} (l : List α) (x : α) :
    lastN n (lastN n l ++ [x]) = lastN n (l ++ [x]) := by
  by_cases h : l.length ≤ n
  · rw [lastN_of_le h]
  · cases n with
    | zero => simp [lastN]
    | succ n =>
      unfold lastN
      simp only [List.length_append, List.length_drop, List.length_cons, List.length_nil]
      have e1 : l.length - (l.length - (n + 1)) + (0 + 1) - (n + 1) = 1 := by omega
      have e2 : l.length + (0 + 1) - (n + 1) = (l.length - (n + 1)) + 1 := by omega
      rw [e1, e2, ← List.drop_drop]
      rw [List.drop_append_of_le_length (l₁ := l) (by omega)]

theorem squeeze_last (ts : List (List Nat)) : (squeeze ts).getLast? = ts.getLast? := by
  induction ts with
  | nil => rfl
  | cons t r ih =>
    cases r with
    | nil => rfl
    | cons t' r =>
      rw [squeeze]
      have h2 : (t :: t' :: r).getLast? = (t' :: r).getLast? := by simp [List.getLast?_cons]
      split
      · rw [ih, h2]
      · rw [h2, ← ih]
        cases hs : squeeze (t' :: r) with
        | nil => rw [hs] at ih; simp [List.getLast?_cons] at ih
        | cons a b => simp [List.getLast?_cons]

theorem squeeze_append (ts : List (List Nat)) (x : List Nat) :
    squeeze (ts ++ [x]) = if ts.getLast? = some x then squeeze ts else squeeze ts ++ [x] := by
  induction ts with
  | nil => rfl
  | cons t r ih =>
    cases r with
    | nil =>
      simp only [List.cons_append, List.nil_append, squeeze, List.getLast?_singleton,
        Option.some.injEq]
      by_cases h : t = x
      · subst h; simp
      · simp [h]
    | cons t' r =>
      have h2 : (t :: t' :: r).getLast? = (t' :: r).getLast? := by simp [List.getLast?_cons]
      rw [h2]
      simp only [List.cons_append] at ih ⊢
      rw [squeeze, squeeze, ih]
      by_cases h : t = t'
      · simp only [if_pos h]
      · simp only [if_neg h]
        split <;> simp

theorem squeeze_sub (l : List (List Nat)) : ∀ x ∈ squeeze l, x ∈ l := by
  induction l with
  | nil => simp [squeeze]
  | cons a r ih =>
    cases r with
    | nil => simp [squeeze]
    | cons b r =>
      intro x hx
      rw [squeeze] at hx
      split at hx
      · exact List.mem_cons_of_mem _ (ih x hx)
      · simp only [List.mem_cons] at hx
        rcases hx with hx | hx
        · simp [hx]
        · exact List.mem_cons_of_mem _ (ih x hx)

theorem entered_snoc {mark : Nat → Bool} {h h' : List (List Nat)}
    {keys : List (List (List Nat))} {ts : List (List Nat)} (he : Entered mark h keys ts h')
    {ks : List (List Nat)} {e : Ed} (hr : EdRun mark (Able mark) (Ed.start h') ks e) :
    Entered mark h (keys ++ [ks]) (ts ++ [e.line.text]) (remember e.kept e.line.text) := by
  induction he with
  | nil => exact .cons hr .nil
  | cons h1 _ ih => exact .cons h1 (ih hr)

/-- one more line -/
theorem recallable_remember {ts : List (List Nat)} {h : List (List Nat)}
    (hr : recallable h = backlog ts) (t : List Nat) :
    recallable (remember (recallable h) t) = backlog (ts ++ [t]) := by
  have hne : ∀ x ∈ backlog ts, x ≠ [] := by
    intro x hx
    have h1 : x ∈ squeeze (ts.filter (· ≠ [])) := List.mem_of_mem_drop hx
    have := squeeze_sub _ x h1
    simpa using (List.mem_filter.1 this).2
  have hlast : (backlog ts).getLast? ≠ some [] := by
    intro h
    exact hne [] (List.mem_of_getLast? h) rfl
  have hlen : (backlog ts).length ≤ 99 := lastN_length _ _
  rw [hr]
  by_cases ht : t = []
  · subst ht
    rw [remember, if_neg hlast, recallable, if_pos (by simp), List.dropLast_concat,
      lastN_of_le hlen]
    unfold backlog; simp
  · have hf : (ts ++ [t]).filter (· ≠ []) = ts.filter (· ≠ []) ++ [t] := by
      rw [List.filter_append]; simp [ht]
    have hb : backlog (ts ++ [t]) = if (backlog ts).getLast? = some t then backlog ts else
        lastN 99 (backlog ts ++ [t]) := by
      unfold backlog
      rw [hf, squeeze_append, lastN_getLast? (by omega), squeeze_last]
      split
      · rfl
      · rw [lastN_append_one]
    rw [hb, remember]
    split
    · rw [recallable, if_neg hlast, lastN_of_le hlen]
    · rw [recallable, if_neg (by simp [ht])]

theorem written_recallable {mark : Nat → Bool} {h h' : List (List Nat)}
    {keys : List (List (List Nat))} {ts : List (List Nat)} (hw : Written1 mark h keys ts h')
    {ts0 : List (List Nat)} (hr : recallable h = backlog ts0) :
    recallable h' = backlog (ts0 ++ ts) := by
  induction hw generalizing ts0 with
  | nil => simpa using hr
  | cons _ _ ih =>
    have := ih (recallable_remember hr _)
    simpa using this

theorem written_entered {mark : Nat → Bool} {h h' : List (List Nat)}
    {keys : List (List (List Nat))} {ts : List (List Nat)} (hw : Written1 mark h keys ts h') :
    Entered mark h keys ts h' := by
  induction hw with
  | nil => exact .nil
  | @cons h keys l rest ts h' hr _ ih =>
    refine .cons hr ?_
    have : (Ed.kept ⟨l, [], (Ed.start h).older, []⟩) = recallable h := by
      simp [Ed.kept, Ed.start]
    rw [this]; exact ih

theorem up_run {mark : Nat → Bool} {k : Nat} : ∀ {l : EdLine} {s : List Nat}
    {o n : List (List Nat)}, (∀ t ∈ o, (uniText t).length < lineRoom) → (hk : k < o.length) →
    ∃ n', EdRun mark (Able mark) ⟨l, s, o, n⟩ (List.replicate (k + 1) [16])
      ⟨⟨o[k], []⟩, o[k], o.drop (k + 1), n'⟩ := by
  induction k with
  | zero =>
    intro l s o n ho hk
    match o, ho, hk with
    | t :: o, ho, hk =>
      exact ⟨_, .cons .up1 (by intro x hx; simp at hx; subst hx; exact ho _ (by simp)) .up .nil⟩
  | succ k ih =>
    intro l s o n ho hk
    match o, ho, hk with
    | t :: o, ho, hk =>
      obtain ⟨n', h⟩ := ih (l := ⟨t, []⟩) (s := t) (o := o) (n := l.text :: n)
        (fun x hx => ho x (by simp [hx])) (by simpa using hk)
      refine ⟨n', ?_⟩
      rw [List.replicate_succ]
      refine .cons .up1 (by intro x hx; simp at hx; subst hx; exact ho _ (by simp)) .up ?_
      simpa using h

/-- After any number of lines entered, pressing the arrow up `k` times and Enter gives the
`k`-th last of them, counting only lines that are not empty and do not repeat the one before,
up to the ninety-ninth.  Missing: what `C74_edit_partial` lacks; lines that fill the buffer
(`C74_recall`). -/
theorem C76_recall_partial (u : CharTables) (complete : List Nat → Reply)
    {h' : List (List Nat)} {keys : List (List (List Nat))} {ts : List (List Nat)}
    (hw : Written1 u.comb [] keys ts h') (hroom : ∀ t ∈ ts, (uniText t).length < lineRoom)
    {dims : List (Nat × Nat)} (hd : dims.length = ts.length + 1) (hc : ∀ d ∈ dims, 0 < d.1)
    (k : Nat) (hk : k < (backlog ts).length) (rest : List Nat) :
    ∃ h2, lnReads u complete dims []
        ((keys.map fun ks => ks.flatten ++ [13]).flatten ++
          (List.replicate (k + 1) 16 ++ 13 :: rest)) =
      .ok ((ts ++ [(backlog ts)[(backlog ts).length - 1 - k]]).map (fun t => some (uniText t)),
        h2, rest) := by
  have hrec : recallable h' = backlog ts := by
    have := written_recallable hw (ts0 := []) (by rfl)
    simpa using this
  have hent := written_entered hw
  have hold : (Ed.start h').older = (backlog ts).reverse := by simp [Ed.start, hrec]
  have hmem : ∀ t ∈ backlog ts, t ∈ ts := by
    intro x hx
    have h1 : x ∈ squeeze (ts.filter (· ≠ [])) := List.mem_of_mem_drop hx
    exact (List.mem_filter.1 (squeeze_sub _ x h1)).1
  have hst : Ed.start h' = ⟨⟨[], []⟩, [], (backlog ts).reverse, []⟩ := by
    simp [Ed.start, hrec]
  obtain ⟨n', hup⟩ := up_run (mark := u.comb) (k := k) (l := ⟨[], []⟩) (s := [])
    (o := (backlog ts).reverse) (n := [])
    (fun t ht => hroom t (hmem t (by simpa using ht))) (by simpa using hk)
  rw [← hst] at hup
  have hall := entered_snoc hent hup
  simp only [EdLine.text, List.append_nil] at hall
  have hget : (backlog ts).reverse[k]'(by simpa using hk) =
      (backlog ts)[(backlog ts).length - 1 - k] := by
    rw [List.getElem_reverse]
  rw [hget] at hall
  have := C76_lines_partial u complete hall (by simp) (by simp) (dims := dims) (by simpa using hd)
    hc rest
  refine ⟨_, Eq.trans ?_ this⟩
  congr 1
  simp

/-! ### Violation -/

/-- A line given up with Ctrl-C is called back as if it had been entered, when it was left
with the arrow up before Ctrl-C was pressed. -/
theorem C76_cancel (u : CharTables) (complete : List Nat → Reply) {d d' : Nat × Nat}
    (hd : 0 < d.1) (hd' : 0 < d'.1) {hist : List (List Nat)} (hh : ∀ t ∈ hist, LineOk u.comb t)
    (hlen : hist.length ≤ 100) {keys : List (List Nat)} {l : EdLine} {s t : List Nat}
    {o n : List (List Nat)}
    (hr : EdRun u.comb (Able u.comb) (Ed.start hist) keys ⟨l, s, o, n ++ [t]⟩) (ht : t ≠ [])
    (hroom : (uniText t).length < lineRoom) (rest : List Nat) :
    ∃ h2, lnReads u complete [d, d'] (hist.map uniText) (keys.flatten ++ 3 :: 16 :: 13 :: rest) =
      .ok ([none, some (uniText t)], h2, rest) := by
  obtain ⟨l1, fuel, h1, h2, h3⟩ := lnLoop_run complete hr (start_rel u hd d.2 hh hlen)
    (3 :: 16 :: 13 :: rest) ((keys.flatten ++ 3 :: 16 :: 13 :: rest).length + 1)
    (Nat.lt_succ_self _)
  have hkey : lnKey u complete l1 (3 :: 16 :: 13 :: rest) = .ok (.fail l1 (16 :: 13 :: rest)) := by
    simp [lnKey, readCode_byte, Res.ok_bind]
  have hone : lnRead u complete d.1 d.2 (hist.map uniText)
      (keys.flatten ++ 3 :: 16 :: 13 :: rest) =
      .ok (none, (o.reverse ++ [s] ++ (n ++ [t])).map uniText, 16 :: 13 :: rest) := by
    unfold lnRead
    rw [h3]
    cases fuel with
    | zero => simp at h2
    | succ fuel =>
      rw [lnLoop, hkey]
      have := h1.hist
      dsimp only at this
      simp only [Res.ok_bind]
      rw [← this]
  have hsm := h1.small
  have hen := h1.entries
  dsimp only at hsm hen
  have hlast : (o.reverse ++ [s] ++ (n ++ [t])).getLast? = some t := by
    rw [← List.append_assoc, List.getLast?_concat]
  have hold : ∃ o', (Ed.start (o.reverse ++ [s] ++ (n ++ [t]))).older = t :: o' := by
    simp only [Ed.start, recallable, hlast, Option.some.injEq, ht, if_false]
    have hl : (lastN 99 (o.reverse ++ [s] ++ (n ++ [t]))).getLast? = some t := by
      rw [lastN_getLast? (by omega), hlast]
    cases hx : (lastN 99 (o.reverse ++ [s] ++ (n ++ [t]))).reverse with
    | nil => rw [List.reverse_eq_nil_iff] at hx; rw [hx] at hl; simp at hl
    | cons a b =>
      rw [List.reverse_eq_cons_iff] at hx
      rw [hx] at hl
      simp at hl
      exact ⟨b, by rw [hl]⟩
  obtain ⟨o', ho⟩ := hold
  have hrun : EdRun u.comb (Able u.comb) (Ed.start (o.reverse ++ [s] ++ (n ++ [t]))) [[16]]
      ⟨⟨t, []⟩, t, o', [[]]⟩ := by
    have he : Ed.start (o.reverse ++ [s] ++ (n ++ [t])) = ⟨⟨[], []⟩, [], t :: o', []⟩ := by
      rw [← ho]; rfl
    rw [he]
    exact .cons .up1 (by intro x hx; simp at hx; subst hx; exact hroom) .up .nil
  have htwo := C74_edit_partial u complete hd' d'.2 (hist := o.reverse ++ [s] ++ (n ++ [t]))
    (by
      intro x hx
      simp only [List.mem_append, List.mem_reverse, List.mem_singleton] at hx
      rcases hx with (hx | hx) | hx | hx
      · exact hen x (by simp [hx])
      · subst hx; exact h1.stored
      · exact hen x (by simp [hx])
      · exact hen x (by simp [hx]))
    (by simp at hsm ⊢; omega) hrun rest
  simp only [List.flatten_cons, List.flatten_nil, List.append_nil, List.singleton_append,
    EdLine.text] at htwo
  simp only [lnReads, hone, Res.ok_bind, htwo]
  exact ⟨_, rfl⟩

/-! ### Examples -/

/-- two lines, `a` and `b` -/
example : Written1 (fun _ => false) [] [[[97]], [[98]]] [[97], [98]] [[97], [98]] := by
  refine .cons (l := ⟨[97], []⟩) (.cons (k := .char 97)
    (KeyBytes.char (c := 97) ⟨by decide, by decide⟩ (by decide)) (by simp [Able])
    (.edit (.type (a := []) (b := []) (by decide))) .nil) ?_
  exact .cons (l := ⟨[98], []⟩) (.cons (k := .char 98)
    (KeyBytes.char (c := 98) ⟨by decide, by decide⟩ (by decide)) (by simp [Able])
    (.edit (.type (a := []) (b := []) (by decide))) .nil) .nil

/-- what can be called back -/
example : backlog [[97], [98], [], [98], [97]] = [[97], [98], [97]] := by decide

/-- `x` is written, left for the line above, and given up; the arrow up brings it back -/
example : lnReads ⟨fun _ => false, fun _ => false⟩ (fun _ => .none) [(80, 0), (80, 0)] [[97]]
    [120, 16, 3, 16, 13] = .ok ([none, some [120]], [[97], [120]], []) := by decide +kernel

end PBat
