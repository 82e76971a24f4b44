import Verif.Lemmas.Whole
import Verif.Lemmas.Load
import Verif.Lemmas.EsGet
import Verif.Lemmas.Expand
import Verif.Model.Cmdly
import Verif.Spec.Cmdly
/-
Lemmas on scripts read line by line.
-/
namespace PBat.Cmdly
open Spec Spec.Cmdly

theorem first_feed {s : List Char} (h : '\n' ∈ s) : ∃ a b, s = a ++ '\n' :: b ∧ '\n' ∉ a := by
  induction s with
  | nil => simp at h
  | cons c cs ih =>
    by_cases hc : c = '\n'
    · exact ⟨[], cs, by simp [hc], by simp⟩
    · have hm : '\n' ∈ cs := by
        rcases List.mem_cons.1 h with h | h
        · exact absurd h.symm hc
        · exact h
      obtain ⟨a, b, rfl, hab⟩ := ih hm
      exact ⟨c :: a, b, rfl, by simp [hab, Ne.symm hc]⟩

theorem lines_first {s l : List Char} {ls : List (List Char)} (h : lines s = l :: ls) : lines (s.drop l.length) = ls := by
  by_cases hn : '\n' ∈ s
  · obtain ⟨a, b, rfl, ha⟩ := first_feed hn
    rw [lines_lf a b ha] at h
    cases h
    simp
  · cases s with
    | nil => simp [lines] at h
    | cons c cs =>
      rw [lines_last (c :: cs) hn (by simp)] at h
      cases h
      simp [lines]

theorem lines_drop {s : List Char} {a b : List (List Char)} (h : lines s = a ++ b) : lines (s.drop a.flatten.length) = b := by
  induction a generalizing s with
  | nil => simpa using h
  | cons l ls ih =>
    have := ih (lines_first h)
    rw [List.flatten_cons, List.length_append, ← List.drop_drop]
    exact this

theorem line_pos {s : List Char} {l : List Char} (h : l ∈ lines s) : 0 < l.length := by
  obtain ⟨a, b, hab⟩ := List.append_of_mem h
  have h1 := lines_drop hab
  cases l with
  | nil => exact absurd h1 (fun h => lines_head_ne h)
  | cons c l => simp

theorem skipAllBlanks_core (l : List Char) : skipAllBlanks l = core l := by
  unfold core
  induction l with
  | nil => rfl
  | cons c r ih =>
    rw [skipAllBlanks, List.dropWhile_cons, isDelim_eq]
    by_cases h : Blank c ∨ c = '@'
    · rw [if_pos (by simpa using h), if_pos (by simpa using h), ih]
    · rw [if_neg (by simpa using h), if_neg (by simpa using h)]

theorem lead_core (l : List Char) : lead l ++ core l = l := List.takeWhile_append_dropWhile

theorem lead_length (l : List Char) : l.length - (skipAllBlanks l).length = (lead l).length := by
  have := congrArg List.length (lead_core l)
  rw [List.length_append] at this
  rw [skipAllBlanks_core]
  omega

theorem getElem_append (a t : List Char) : (a ++ t)[a.length]? = t.head? := by
  rw [List.getElem?_append_right (Nat.le_refl _), Nat.sub_self, List.head?_eq_getElem?]

/-- One turn of the loop on a line that is not run. -/
theorem readLoop_skip {cap : List Char → Nat} {ex : List Char → Res (List Char)} {acc raw : List Char} {used : Nat}
    {ls : List (List Char)} (hs : Steady cap ex (normNL raw)) (hk : Skipped (normNL raw)) :
    readLoop cap ex acc used (raw :: ls) =
      if acc = [] then .ok (acc, true, some (used + raw.length)) else readLoop cap ex acc (used + raw.length) ls := by
  obtain ⟨t, ht, hcap, hiff⟩ := hs
  have hh := hiff.1 hk
  rw [readLoop]
  simp only [ht, lead_length, getElem_append]
  rw [if_neg (by rw [List.length_append] at *; omega), if_pos]
  cases hc : t.head? with
  | none => exact Or.inl rfl
  | some c =>
    rcases hh c hc with rfl | rfl
    · exact Or.inr (Or.inl rfl)
    · exact Or.inr (Or.inr rfl)

/-- One turn on a line that is run. -/
theorem readLoop_run {cap : List Char → Nat} {ex : List Char → Res (List Char)} {acc raw u : List Char} {used : Nat}
    {ls : List (List Char)} (hs : Steady cap ex (normNL raw)) (hk : ¬ Skipped (normNL raw)) (hu : ex (normNL raw) = .ok u) :
    readLoop cap ex acc used (raw :: ls) =
      match checkBlocks (acc ++ terminated u) with
      | .ub => .ub
      | .hang => .hang
      | .ok (some true) => .ok (acc ++ terminated u, true, some (used + raw.length))
      | .ok _ => readLoop cap ex (acc ++ terminated u) (used + raw.length) ls := by
  obtain ⟨t, ht, hcap, hiff⟩ := hs
  have hh := mt hiff.2 hk
  rw [readLoop]
  cases hu.symm.trans ht
  simp only [ht, lead_length, getElem_append]
  rw [if_neg (by rw [List.length_append] at *; omega), if_neg]
  · rfl
  · intro h
    apply hh
    intro c hc
    rw [hc] at h
    simpa using h

theorem terminated_ne (u : List Char) : terminated u ≠ [] := by
  unfold terminated
  split
  · rintro rfl; simp at *
  · simp

theorem joined_ne {ex : List Char → Res (List Char)} {ls : List (List Char)} {t : List Char} (h : Joined ex ls t) :
    ls ≠ [] → (∀ l, ls.getLast? = some l → ¬ Skipped (normNL l)) → t ≠ [] := by
  induction h with
  | nil => intro h; exact absurd rfl h
  | @skip l ls t hk _ ih =>
    intro _ hl
    cases ls with
    | nil => exact absurd hk (hl l rfl)
    | cons m ls => exact ih (by simp) (fun x hx => hl x (by rw [List.getLast?_cons_cons]; exact hx))
  | @run l ls u t _ _ _ _ =>
    intro _ _ h
    exact terminated_ne u (List.append_eq_nil_iff.1 h).1

/-- The loop on the lines of a command. -/
theorem readLoop_blk {cap : List Char → Nat} {ex : List Char → Res (List Char)} {strict : Bool} {w : List Char}
    (hw : Whole strict w) {blk : List (List Char)} {t : List Char} (h : Joined ex blk t) :
    ∀ (acc : List Char) (used : Nat) (rest : List (List Char)), acc ++ t = w ++ ['\n'] → blk ≠ [] →
      (∀ l ∈ blk, Steady cap ex (normNL l)) → (∀ l, blk.getLast? = some l → ¬ Skipped (normNL l)) →
      (acc = [] → ∀ l, blk.head? = some l → ¬ Skipped (normNL l)) →
      readLoop cap ex acc used (blk ++ rest) = .ok (w ++ ['\n'], true, some (used + blk.flatten.length)) := by
  induction h with
  | nil => intro _ _ _ _ h; exact absurd rfl h
  | @skip l ls t hk _ ih =>
    intro acc used rest he _ hs hl hf
    have hacc : acc ≠ [] := fun h => hf h l rfl hk
    rw [List.cons_append, readLoop_skip (hs l (by simp)) hk, if_neg hacc]
    cases ls with
    | nil => exact absurd hk (hl l rfl)
    | cons m ls =>
      rw [ih acc _ rest he (by simp) (fun x hx => hs x (by simp [hx]))
        (fun x hx => hl x (by rw [List.getLast?_cons_cons]; exact hx)) (fun h => absurd h hacc)]
      rw [List.flatten_cons (L := m :: ls), List.length_append, Nat.add_assoc]
  | @run l ls u t hk hu hj ih =>
    intro acc used rest he _ hs hl hf
    rw [List.cons_append, readLoop_run (hs l (by simp)) hk hu]
    rw [← List.append_assoc] at he
    cases ls with
    | nil =>
      cases hj
      rw [List.append_nil] at he
      rw [he, checkBlocks_whole hw []]
      simp
    | cons m ls =>
      have hl' : ∀ x, (m :: ls).getLast? = some x → ¬ Skipped (normNL x) :=
        fun x hx => hl x (by rw [List.getLast?_cons_cons]; exact hx)
      have ht := joined_ne hj (by simp) hl'
      obtain ⟨v, hv⟩ : ∃ v, w = (acc ++ terminated u) ++ v := by
        refine ⟨t.dropLast, ?_⟩
        have := congrArg List.dropLast he
        rw [List.dropLast_append_of_ne_nil ht, List.dropLast_concat] at this
        exact this.symm
      have hp : checkBlocks (acc ++ terminated u) ≠ .ok (some true) := checkBlocks_part (v := v) (hv ▸ hw)
      obtain ⟨o, ho⟩ := checkBlocks_total (acc ++ terminated u)
      have hne : acc ++ terminated u ≠ [] := fun h => terminated_ne u (List.append_eq_nil_iff.1 h).2
      have key := ih (acc ++ terminated u) (used + l.length) rest he (by simp) (fun x hx => hs x (by simp [hx])) hl'
        (fun h => absurd h hne)
      rw [ho] at hp ⊢
      rw [List.flatten_cons (L := m :: ls), List.length_append, ← Nat.add_assoc]
      match o with
      | none => exact key
      | some false => exact key
      | some true => exact absurd rfl hp

/-- Every call of `getLine` that does not reach the end of the file makes progress within it. -/
theorem readLoop_progress (cap : List Char → Nat) (ex : List Char → Res (List Char)) (ls : List (List Char))
    (hp : ∀ l ∈ ls, 0 < l.length) : ∀ (acc : List Char) (used : Nat) (t : List Char) (b : Bool) (n : Nat),
    readLoop cap ex acc used ls = .ok (t, b, some n) → used < n ∧ n ≤ used + ls.flatten.length := by
  induction ls with
  | nil => intro acc used t b n h; simp [readLoop] at h
  | cons raw ls ih =>
    intro acc used t b n h
    have h0 := hp raw (by simp)
    have ih := ih (fun l hl => hp l (by simp [hl]))
    have hstep : ∀ acc', readLoop cap ex acc' (used + raw.length) ls = .ok (t, b, some n) →
        used < n ∧ n ≤ used + (raw :: ls).flatten.length := by
      intro acc' h
      have := ih _ _ _ _ _ h
      rw [List.flatten_cons, List.length_append]
      omega
    have hfin : ∀ m, m = n → m = used + raw.length → used < n ∧ n ≤ used + (raw :: ls).flatten.length := by
      intro m h1 h2
      rw [List.flatten_cons, List.length_append]
      omega
    rw [readLoop] at h
    split at h
    · exact absurd h (by simp)
    · exact absurd h (by simp)
    · split at h
      · exact absurd h (by simp)
      · split at h
        · split at h
          · simp only [Res.ok.injEq, Prod.mk.injEq, Option.some.injEq] at h
            exact hfin _ h.2.2 rfl
          · exact hstep _ h
        · simp only at h
          split at h
          all_goals first
            | exact hstep _ h
            | (cases h; exact hfin _ rfl rfl)
            | cases h

/-- A call of `getLine` from a position in the text. -/
theorem getLine_eq (f : List Char) (cap : List Char → Nat) (ex : List Char → Res (List Char)) (st : In) :
    getLine (fun _ => some f) cap ex st =
      match readLoop cap ex [] 0 (lines (f.drop st.pos)) with
      | .ub => .ub
      | .hang => .hang
      | .ok (t, correct, n) =>
        let st' := match n with
          | none => { st with eof := true }
          | some n => { st with pos := st.pos + n, eof := false }
        if t = [] then .ok (.nothing, st')
        else if correct = false then .ok (.unclosed, { st' with eof := true })
        else .ok (.line (rmTrailingNl t), st') := rfl

theorem getLine_progress {f : List Char} {cap : List Char → Nat} {ex : List Char → Res (List Char)} {st st' : In} {g : Got}
    (h : getLine (fun _ => some f) cap ex st = .ok (g, st')) (he : st'.eof = false) :
    st.pos < st'.pos ∧ st'.pos ≤ f.length := by
  have hl : (lines (f.drop st.pos)).flatten.length = f.length - st.pos := by rw [lines_flatten, List.length_drop]
  rw [getLine_eq] at h
  cases hr : readLoop cap ex [] 0 (lines (f.drop st.pos)) with
  | ub => rw [hr] at h; cases h
  | hang => rw [hr] at h; cases h
  | ok x =>
    obtain ⟨t, b, n⟩ := x
    rw [hr] at h
    cases n with
    | none =>
      simp only at h
      split at h
      · cases h; simp at he
      · split at h
        · cases h; simp at he
        · cases h; simp at he
    | some n =>
      have := readLoop_progress cap ex _ (fun l hl => line_pos hl) _ _ _ _ _ hr
      rw [hl] at this
      simp only at h
      split at h
      · cases h; simp only; omega
      · split at h
        · cases h; simp at he
        · cases h; simp only; omega

/-- The loop of `pBat_RunFile` without its guards. -/
theorem runFile_eq (f : List Char) (cap : List Char → Nat) (exs : Nat → List Char → Res (List Char)) (n : Nat) (st : In) :
    runFile f cap exs n st =
      if st.eof then .ok []
      else
        match getLine (fun _ => some f) cap (exs n) st with
        | .ub => .ub
        | .hang => .hang
        | .ok (.line t, st') =>
          match runFile f cap exs (n + 1) st' with
          | .ub => .ub
          | .hang => .hang
          | .ok r => .ok (t :: r)
        | .ok (_, st') => runFile f cap exs n st' := by
  rw [runFile]
  by_cases h0 : st.eof = true
  · rw [if_pos h0, if_pos h0]
  rw [if_neg h0, if_neg h0]
  cases hg : getLine (fun _ => some f) cap (exs n) st with
  | ub => rfl
  | hang => rfl
  | ok x =>
    obtain ⟨g, st'⟩ := x
    simp only
    cases he : st'.eof with
    | false =>
      have hp := getLine_progress hg he
      simp only [hp, and_self, not_true_eq_false, and_false, if_false, dite_true]
      cases g <;> rfl
    | true =>
      simp only [Bool.true_eq_false, false_and, if_false, dite_false]
      have hr : ∀ m, runFile f cap exs m st' = .ok [] := by
        intro m; rw [runFile, if_pos he]
      cases g <;> simp only [hr]

/-- The reading of a line that is not run. -/
theorem getLine_skip {f : List Char} {cap : List Char → Nat} {ex : List Char → Res (List Char)} {st : In} {raw : List Char}
    {ls : List (List Char)} (hl : lines (f.drop st.pos) = raw :: ls) (hs : Steady cap ex (normNL raw)) (hk : Skipped (normNL raw)) :
    getLine (fun _ => some f) cap ex st = .ok (.nothing, { st with pos := st.pos + raw.length, eof := false }) := by
  rw [getLine_eq, hl, readLoop_skip hs hk, if_pos rfl]
  simp

/-- The reading of the lines of a command. -/
theorem getLine_blk {f : List Char} {cap : List Char → Nat} {ex : List Char → Res (List Char)} {st : In} {strict : Bool}
    {w : List Char} {blk rest : List (List Char)} (hl : lines (f.drop st.pos) = blk ++ rest) (hw : Whole strict w)
    (hj : Joined ex blk (w ++ ['\n'])) (hs : ∀ l ∈ blk, Steady cap ex (normNL l))
    (hf : ∀ l, blk.head? = some l → ¬ Skipped (normNL l)) (hlast : ∀ l, blk.getLast? = some l → ¬ Skipped (normNL l)) :
    getLine (fun _ => some f) cap ex st = .ok (.line w, { st with pos := st.pos + blk.flatten.length, eof := false }) := by
  have hne : blk ≠ [] := by
    rintro rfl
    generalize hx : w ++ ['\n'] = x at hj
    cases hj
    simp at hx
  rw [getLine_eq, hl, readLoop_blk hw hj [] 0 rest rfl hne hs hlast (fun _ => hf)]
  simp [rmTrailingNl]

/-- The reading at the end of the file. -/
theorem getLine_end {f : List Char} {cap : List Char → Nat} {ex : List Char → Res (List Char)} {st : In}
    (hl : lines (f.drop st.pos) = []) :
    getLine (fun _ => some f) cap ex st = .ok (.nothing, { st with eof := true }) := by
  rw [getLine_eq, hl]
  rfl

theorem drop_lines {f : List Char} {p : Nat} {a b : List (List Char)} (h : lines (f.drop p) = a ++ b) :
    lines (f.drop (p + a.flatten.length)) = b := by
  rw [← List.drop_drop]
  exact lines_drop h

/-- Lines that are not run are passed. -/
theorem runFile_skip {f : List Char} {cap : List Char → Nat} {exs : Nat → List Char → Res (List Char)} {n : Nat} {name : List Char}
    (skip : List (List Char)) : ∀ {pos : Nat} {ls : List (List Char)}, lines (f.drop pos) = skip ++ ls →
    (∀ l ∈ skip, Steady cap (exs n) (normNL l)) → (∀ l ∈ skip, Skipped (normNL l)) →
    runFile f cap exs n { file := name, pos := pos, eof := false } =
      runFile f cap exs n { file := name, pos := pos + skip.flatten.length, eof := false } := by
  induction skip with
  | nil => intros; rfl
  | cons l skip ih =>
    intro pos ls hl hs hk
    rw [runFile_eq, if_neg (by simp), getLine_skip (raw := l) (ls := skip ++ ls) hl (hs l (by simp)) (hk l (by simp))]
    simp only
    rw [ih (pos := pos + l.length) (ls := ls) (by
      have := drop_lines (a := [l]) (b := skip ++ ls) hl
      simpa using this) (fun x hx => hs x (by simp [hx])) (fun x hx => hk x (by simp [hx]))]
    rw [List.flatten_cons, List.length_append, Nat.add_assoc]

/-- A script is run as the list of its commands. -/
theorem runFile_runs {f : List Char} {cap : List Char → Nat} {exs : Nat → List Char → Res (List Char)} {name : List Char}
    (hs : ∀ n, ∀ l ∈ lines f, Steady cap (exs n) (normNL l)) {n : Nat} {ls cs : List (List Char)} (h : Runs exs n ls cs) :
    ∀ pos, lines (f.drop pos) = ls → (∀ l ∈ ls, l ∈ lines f) →
      runFile f cap exs n { file := name, pos := pos, eof := false } = .ok cs := by
  induction h with
  | @done n ls hk =>
    intro pos hl hm
    rw [runFile_skip ls (ls := []) (by rw [hl, List.append_nil]) (fun l h => hs n l (hm l h)) hk]
    have he := drop_lines (a := ls) (b := []) (by rw [hl, List.append_nil])
    rw [runFile_eq, if_neg (by simp), getLine_end he]
    simp only
    rw [runFile_eq, if_pos rfl]
  | @cmd n skip blk w strict rest cs hk hf hlast hj hw _ ih =>
    intro pos hl hm
    rw [runFile_skip skip hl (fun l h => hs n l (hm l (by simp [h]))) hk]
    have h1 := drop_lines hl
    rw [runFile_eq, if_neg (by simp), getLine_blk h1 hw hj (fun l h => hs n l (hm l (by simp [h]))) hf hlast]
    simp only
    rw [ih _ (drop_lines h1) (fun l h => hm l (by simp [h]))]

/-- What comes before the first percent sign is kept by the expansion. -/
theorem expandVar_prefix {args : List Char → Option (List Char × Nat)} {getv : List Char → Res (Option (List Char))}
    {w s t : List Char} (hw : '%' ∉ w) (h : expandVar '%' id args getv (w ++ s) = .ok t) : ∃ u, t = w ++ u := by
  have key : ∀ i, searchTok (· == '%') (w ++ s) = some i → ∃ u, (w ++ s).take i = w ++ u := by
    intro i hi
    have hl : w.length ≤ i := searchTok_late (searchTok_absent (fun d hd => by
      simp only [beq_eq_false_iff_ne]; rintro rfl; exact hw hd)) hi
    obtain ⟨j, rfl⟩ := Nat.exists_eq_add_of_le hl
    exact ⟨s.take j, by rw [List.take_length_add_append]⟩
  rw [expandVar.eq_1] at h
  split at h
  · cases h; exact ⟨s, rfl⟩
  · next i hi =>
    obtain ⟨u, hu⟩ := key i hi
    simp only [id, hu] at h
    have fin : ∀ {x : Res (List Char)} {y : List Char} , (do let t ← x; pure (w ++ u ++ y ++ t)) = Res.ok t → ∃ u, t = w ++ u := by
      intro x y hx
      cases x with
      | ub => cases hx
      | hang => cases hx
      | ok z => cases hx; exact ⟨u ++ (y ++ z), by simp⟩
    split at h
    · exact fin (y := ['%']) (by simpa using h)
    · split at h
      · exact fin h
      · split at h
        · next j _ =>
          cases hv : getv ((List.drop (i + 1) (w ++ s)).take j) with
          | ub => rw [hv] at h; cases h
          | hang => rw [hv] at h; cases h
          | ok v => rw [hv] at h; exact fin h
        · exact fin (y := []) (by simpa using h)

theorem core_head (l : List Char) (c : Char) (h : (core l).head? = some c) : ¬ (Blank c ∨ c = '@') := by
  unfold core at h
  induction l with
  | nil => simp at h
  | cons d r ih =>
    rw [List.dropWhile_cons] at h
    split at h
    · exact ih h
    · next hd =>
      simp only [List.head?_cons, Option.some.injEq] at h
      subst h
      simpa using hd

theorem lead_percent (l : List Char) : '%' ∉ lead l := by
  unfold lead
  induction l with
  | nil => simp
  | cons c r ih =>
    rw [List.takeWhile_cons]
    split
    · next h =>
      simp only [List.mem_cons, not_or]
      refine ⟨?_, ih⟩
      rintro rfl
      simp [Blank] at h
    · simp

theorem normNL_id {s : List Char} (h : '\r' ∉ s) : normNL s = s := by
  fun_induction normNL s <;> simp_all

theorem lines_unterminated {s : List Char} {a : List (List Char)} {l : List Char} {rest : List (List Char)}
    (h : lines s = a ++ l :: rest) (hl : '\n' ∉ l) : rest = [] := by
  have h1 := lines_drop h
  generalize s.drop a.flatten.length = s' at h1
  by_cases hn : '\n' ∈ s'
  · obtain ⟨x, y, rfl, hx⟩ := first_feed hn
    rw [lines_lf x y hx] at h1
    cases h1
    simp at hl
  · cases s' with
    | nil => simp [lines] at h1
    | cons c cs =>
      rw [lines_last (c :: cs) hn (by simp)] at h1
      cases h1
      rfl

theorem after_unique {name : List Char} {a a' : List (List Char)} {l l' : List Char} {r r' : List (List Char)}
    (h : a' ++ l' :: r' = a ++ l :: r) (hm' : IsLabel (normNL l') name) (hno' : ∀ x ∈ a', ¬ IsLabel (normNL x) name)
    (hm : IsLabel (normNL l) name) (hno : ∀ x ∈ a, ¬ IsLabel (normNL x) name) : r' = r := by
  induction a generalizing a' with
  | nil =>
    cases a' with
    | nil => cases h; rfl
    | cons x a' => cases h; exact absurd hm (hno' _ (by simp))
  | cons y a ih =>
    cases a' with
    | nil => cases h; exact absurd hm' (hno _ (by simp))
    | cons x a' =>
      rw [List.cons_append, List.cons_append, List.cons.injEq] at h
      exact ih h.2 (fun z hz => hno' z (by simp [hz])) (fun z hz => hno z (by simp [hz]))

theorem runs_nil {exs : Nat → List Char → Res (List Char)} {n : Nat} {ls cs : List (List Char)} (h : Runs exs n ls cs) (hls : ls = []) :
    cs = [] := by
  cases h with
  | done => rfl
  | cmd _ _ _ hj =>
    exfalso
    simp only [List.append_eq_nil_iff] at hls
    obtain ⟨-, rfl, -⟩ := hls
    generalize hy : _ ++ ['\n'] = y at hj
    cases hj
    simp at hy

end PBat.Cmdly
