import Verif.Model.Args
import Verif.Spec.Args
import Verif.Lemmas.Quotes
import Verif.Lemmas.Expand
/-
Helper lemmas for parameter extraction.
-/
namespace PBat
open Spec

/-! ### Concatenation of closed pieces -/

theorem takeWhile_self {p : Char → Bool} {l : List Char} (h : ∀ c ∈ l, p c = true) : l.takeWhile p = l := by
  have := List.takeWhile_append_of_pos (l₂ := []) h
  simpa using this

theorem caretsBefore_append (u v : List Char) (j : Nat) :
    caretsBefore (u ++ v) (u.length + j) % 2 =
      (caretsBefore v j + (if ∀ c ∈ v.take j, c = '^' then caretsBefore u u.length else 0)) % 2 := by
  unfold caretsBefore
  have e : (u ++ v).take (u.length + j) = u ++ v.take j := by
    rw [List.take_append, List.take_of_length_le (by omega)]
    congr 2; omega
  rw [e, List.reverse_append]
  by_cases h : ∀ c ∈ v.take j, c = '^'
  · rw [if_pos h]
    have ha : ∀ c ∈ (v.take j).reverse, (c == '^') = true := by
      intro c hc; simpa using h c (List.mem_reverse.1 hc)
    rw [List.takeWhile_append_of_pos ha, List.length_append]
    rw [takeWhile_self ha, List.take_length]
  · rw [if_neg h]
    have : ∃ x ∈ (v.take j).reverse, ¬ (x == '^') = true := by
      simp only [Classical.not_forall] at h
      obtain ⟨c, hc, hne⟩ := h
      exact ⟨c, List.mem_reverse.2 hc, by simpa using hne⟩
    rw [List.takeWhile_append, if_neg]
    · rfl
    · intro hl
      obtain ⟨x, hx, hxn⟩ := this
      have hs : (v.take j).reverse.takeWhile (· == '^') = (v.take j).reverse :=
        (List.takeWhile_sublist _).eq_of_length hl
      rw [← hs] at hx
      have := List.all_takeWhile (l := (v.take j).reverse) (p := (· == '^'))
      rw [List.all_eq_true] at this
      exact hxn (this x hx)

theorem Free_append {u : List Char} (hu : caretsBefore u u.length % 2 = 0) (v : List Char) (j : Nat) :
    Free (u ++ v) (u.length + j) ↔ Free v j := by
  unfold Free
  rw [caretsBefore_append]
  split
  · omega
  · simp

theorem Hit_append {p : Char → Bool} {u : List Char} (hu : caretsBefore u u.length % 2 = 0) (v : List Char) (j : Nat) :
    Hit p (u ++ v) (u.length + j) ↔ Hit p v j := by
  unfold Hit
  rw [Free_append hu, List.getElem?_append_right (by omega), Nat.add_sub_cancel_left]

theorem Lead_append {d : Char} {u v : List Char} (hu : Lead d u) (hv : Lead d v) : Lead d (u ++ v) := by
  constructor
  · intro i
    rcases Nat.lt_or_ge i u.length with h | h
    · rw [Hit_prefix _ _ _ _ h]; exact hu.1 i
    · obtain ⟨j, rfl⟩ : ∃ j, i = u.length + j := ⟨i - u.length, by omega⟩
      rw [Hit_append hu.2]; exact hv.1 j
  · have := (Free_append hu.2 v v.length)
    rw [List.length_append]
    exact this.2 hv.2

theorem Lead_nil (d : Char) : Lead d [] := lead_of_not_mem (by simp) (by simp)

theorem Lead_pair {d : Char} (hd : d ≠ '^') (c : Char) : Lead d ['^', c] := by
  constructor
  · rintro i ⟨⟨x, hx, hp⟩, hf⟩
    have hxd : x = d := by simpa using hp
    subst hxd
    rcases i with _ | _ | i
    · simp at hx; exact hd hx.symm
    · revert hf; simp [Free, caretsBefore]
    · simp at hx
  · unfold caretsBefore
    by_cases hc : c = '^'
    · subst hc; decide
    · simp [hc]

theorem Lead_escape {d : Char} (hd : d ≠ '^') {q : Char → Bool} (hq : q d = true) (hqc : q '^' = true) (a : List Char) :
    Lead d (escape q a) := by
  induction a with
  | nil => exact Lead_nil d
  | cons c a ih =>
    unfold escape
    by_cases hc : q c = true
    · rw [if_pos hc]
      exact Lead_append (Lead_pair hd c) ih
    · rw [if_neg hc]
      refine Lead_append (u := [c]) (lead_of_not_mem ?_ ?_) ih
      · simp only [List.mem_singleton]; rintro rfl; exact hc hq
      · simp only [List.mem_singleton]; rintro rfl; exact hc hqc

/-! ### The extent of a parameter -/

theorem paramEnd_first {p : Char → Bool} (hp : p '"' = true) (hpc : p '^' = false) (s : List Char) (k : Nat)
    (hcl : Clean s k) (hev : quotesBefore s k % 2 = 0) :
    FirstFrom (fun i => Hit (fun c => p c && c != '"') s i ∧ OutQuotes s i) k (paramEnd p s k) := by
  have key : ∀ i, p i = true → i ≠ '^' := by rintro i h rfl; rw [hpc] at h; exact absurd h (by simp)
  induction hm : s.length - k using Nat.strongRecOn generalizing k with
  | ind m ih =>
    have hsf := searchFrom_first (p := p) hcl
    rw [paramEnd.eq_1]
    have hnotbefore : ∀ i j, k ≤ i → i < j → (∀ x, x < j → ¬ (k ≤ x ∧ Hit p s x)) →
        ¬ (Hit (fun c => p c && c != '"') s i ∧ OutQuotes s i) := by
      rintro i j h1 h2 h3 ⟨⟨⟨c, hc, hpc'⟩, hf⟩, -⟩
      simp only [Bool.and_eq_true] at hpc'
      exact h3 i h2 ⟨h1, ⟨c, hc, hpc'.1⟩, hf⟩
    split
    · rename_i hs
      rw [hs] at hsf
      rintro i ⟨hki, ⟨⟨c, hc, hpc'⟩, hf⟩, -⟩
      simp only [Bool.and_eq_true] at hpc'
      exact hsf i ⟨hki, ⟨c, hc, hpc'.1⟩, hf⟩
    · rename_i i hs
      have hb := searchFrom_bounds hs
      rw [hs] at hsf
      obtain ⟨⟨-, ⟨c, hc, hpc'⟩, hf⟩, hmin⟩ := hsf
      have hqsame : quotesBefore s i = quotesBefore s k := by
        apply Eq.symm
        apply (quotesBefore_same hb.1 _).symm
        intro j h1 h2 hq
        exact hmin j h2 ⟨h1, ⟨'"', hq.1, hp⟩, hq.2⟩
      by_cases hquote : s[i]? = some '"'
      · rw [if_pos hquote]
        have hqi : QuoteAt s i := ⟨hquote, hf⟩
        have hodd : quotesBefore s (i + 1) % 2 = 1 := by
          rw [quotesBefore_succ, if_pos hqi, hqsame]; omega
        have hcl2 : Clean s (i + 1) := Clean_succ hquote (by decide)
        have hsq := searchFrom_quote hcl2
        have hin : ∀ x, i ≤ x → (∀ j, i + 1 ≤ j → j < x → ¬ QuoteAt s j) → ¬ OutQuotes s x := by
          rintro x hx hnq ⟨h1, h2⟩
          rcases Nat.lt_or_ge i x with h | h
          · have : quotesBefore s x = quotesBefore s (i + 1) := by
              apply Eq.symm
              apply (quotesBefore_same h _).symm
              intro j a b; exact hnq j a b
            omega
          · have : x = i := by omega
            subst this; exact h2 hqi
        split
        · rename_i hs2
          rw [hs2] at hsq
          rintro x ⟨hkx, hhit, hout⟩
          rcases Nat.lt_or_ge x i with h | h
          · exact hnotbefore x i hkx h hmin ⟨hhit, hout⟩
          · exact hin x h (fun j a b hq => hsq j ⟨a, hq⟩) hout
        · rename_i j hs2
          have hb2 := searchFrom_bounds hs2
          rw [hs2] at hsq
          obtain ⟨⟨-, hqj⟩, hmin2⟩ := hsq
          have hqe : quotesBefore s j = quotesBefore s (i + 1) := by
            apply Eq.symm
            apply (quotesBefore_same hb2.1 _).symm
            intro x a b hq; exact hmin2 x b ⟨a, hq⟩
          have hih := ih (s.length - (j + 1)) (by omega) (j + 1) (Clean_succ hqj.1 (by decide))
            (by rw [quotesBefore_succ, if_pos hqj]; omega) rfl
          have hskip : ∀ x, k ≤ x → x < j + 1 →
              ¬ (Hit (fun c => p c && c != '"') s x ∧ OutQuotes s x) := by
            rintro x h1 h2 hh
            rcases Nat.lt_or_ge x i with h | h
            · exact hnotbefore x i h1 h hmin hh
            · rcases Nat.lt_or_ge x j with h' | h'
              · exact hin x h (fun y a b hq => hmin2 y (by omega) ⟨a, hq⟩) hh.2
              · have : x = j := by omega
                subst this; exact hh.2.2 hqj
          cases hr : paramEnd p s (j + 1) with
          | none =>
            rw [hr] at hih
            rintro x ⟨h1, h2⟩
            rcases Nat.lt_or_ge x (j + 1) with h | h
            · exact hskip x h1 h h2
            · exact hih x ⟨h, h2⟩
          | some e =>
            rw [hr] at hih
            refine ⟨⟨by have := hih.1.1; omega, hih.1.2⟩, ?_⟩
            rintro x hx ⟨h1, h2⟩
            rcases Nat.lt_or_ge x (j + 1) with h | h
            · exact hskip x h1 h h2
            · exact hih.2 x hx ⟨h, h2⟩
      · rw [if_neg hquote]
        have hcq : c ≠ '"' := by rintro rfl; exact hquote hc
        refine ⟨⟨hb.1, ⟨⟨c, hc, by simp [hpc', hcq]⟩, hf⟩, by rw [hqsame]; exact hev, fun hq => hquote hq.1⟩, ?_⟩
        rintro x hx ⟨h1, h2⟩
        exact hnotbefore x i h1 hx hmin h2

theorem Free_prefix (x y : List Char) : Free (x ++ y) x.length ↔ Free x x.length := by
  unfold Free caretsBefore
  rw [List.take_left, List.take_length]

theorem paramText_spec {p : Char → Bool} (hp : p '"' = true) (hpc : p '^' = false) (s : List Char) (hs : s ≠ []) :
    ∃ raw rest text, ParamEnd p s raw rest ∧ ParamText (rest = []) raw text ∧
      paramText s (paramEnd p s 0) = .ok text ∧
      restAt s (paramEnd p s 0) = rest := by
  have hfirst := paramEnd_first hp hpc s 0 (.inl rfl) (by simp [quotesBefore])
  cases s with
  | nil => exact absurd rfl hs
  | cons c cs =>
    cases he : paramEnd p (c :: cs) 0 with
    | none =>
      rw [he] at hfirst
      have hend : ParamEnd p (c :: cs) (c :: cs) [] := by
        refine ⟨by simp, ?_⟩
        rw [if_pos rfl]
        intro i hi
        exact hfirst i ⟨by omega, hi⟩
      unfold paramText
      by_cases hc : c = '"'
      · subst hc
        simp only [beq_self_eq_true, if_true]
        have hl := searchLastTok_last (· == '"') (by decide) cs
        cases hsl : searchLastTok (· == '"') cs with
        | none =>
          rw [hsl] at hl
          refine ⟨_, [], cs, hend, ?_, rfl, rfl⟩
          refine .opened ?_
          rintro x rfl
          refine ⟨by simp, fun hf => hl x.length ⟨⟨'"', by simp, by simp⟩, ?_⟩⟩
          exact (Free_prefix x ['"']).2 hf
        | some j =>
          rw [hsl] at hl
          obtain ⟨⟨⟨d, hd, hq⟩, hf⟩, hlast⟩ := hl
          have hdq : d = '"' := by simpa using hq
          subst hdq
          obtain ⟨hj, -⟩ := List.getElem?_eq_some_iff.1 hd
          simp only
          by_cases hj1 : j + 1 = cs.length
          · rw [if_pos hj1]
            obtain ⟨h1, h2⟩ := split_at hd
            have h3 : cs.drop (j + 1) = [] := List.drop_eq_nil_of_le (by omega)
            rw [h3] at h1
            refine ⟨_, [], cs.take j, hend, ?_, rfl, rfl⟩
            rw [h1, List.take_append_of_le_length (by omega)]
            have h4 : (cs.take j).take j = cs.take j := by rw [List.take_take, Nat.min_self]
            rw [h4]
            refine .quoted fun _ => ?_
            rw [h1] at hf
            have := (Free_prefix (cs.take j) ['"'])
            rw [h2] at this ⊢
            exact this.1 hf
          · rw [if_neg hj1]
            refine ⟨_, [], cs, hend, ?_, rfl, rfl⟩
            refine .opened ?_
            rintro x rfl
            refine ⟨by simp, fun hff => ?_⟩
            simp only [List.length_append, List.length_cons, List.length_nil] at hj hj1
            refine hlast x.length (by omega) ⟨⟨'"', by simp, by simp⟩, (Free_prefix x ['"']).2 hff⟩
      · simp only
        rw [if_neg (by simpa using hc)]
        exact ⟨_, [], _, hend, .bare (by simpa using hc), rfl, rfl⟩
    | some e =>
      rw [he] at hfirst
      obtain ⟨⟨-, ⟨⟨d, hd, hpd⟩, hf⟩, hout⟩, hmin⟩ := hfirst
      obtain ⟨hel, -⟩ := List.getElem?_eq_some_iff.1 hd
      have hne : (c :: cs).drop e ≠ [] := by
        intro h
        have := List.drop_eq_nil_iff.1 h
        omega
      have hlen : ((c :: cs).take e).length = e := by rw [List.length_take]; omega
      have hend : ParamEnd p (c :: cs) ((c :: cs).take e) ((c :: cs).drop e) := by
        refine ⟨by rw [List.take_append_drop], ?_⟩
        rw [if_neg hne, hlen]
        exact ⟨⟨⟨⟨d, hd, hpd⟩, hf⟩, hout⟩, fun j hj h => hmin j hj ⟨by omega, h⟩⟩
      have hdec : decide ((c :: cs).drop e = []) = false := decide_eq_false hne
      unfold paramText
      by_cases hc : c = '"'
      · subst hc
        have hq0 : QuoteAt ('"' :: cs) 0 := ⟨by simp, by simp [Free, caretsBefore]⟩
        have he0 : e ≠ 0 := by rintro rfl; exact hout.2 hq0
        have he1 : e ≠ 1 := by
          rintro rfl
          have h1 := hout.1
          rw [quotesBefore_succ, if_pos hq0] at h1
          simp [quotesBefore] at h1
        obtain ⟨m, rfl⟩ : ∃ m, e = m + 2 := ⟨e - 2, by omega⟩
        simp only [beq_self_eq_true, if_true]
        rw [if_neg he0, if_neg he1]
        have e1 : m + 2 - 1 = m + 1 := by omega
        have e2 : m + 2 - 2 = m := by omega
        rw [e1, e2, List.getElem?_cons_succ]
        simp only [List.length_cons] at hel
        by_cases hl : cs[m]? = some '"'
        · rw [if_pos hl]
          refine ⟨_, _, cs.take m, hend, ?_, rfl, rfl⟩
          rw [List.take_succ_cons, hdec]
          have : cs.take (m + 1) = cs.take m ++ ['"'] := by rw [List.take_succ, hl]; rfl
          rw [this]
          exact .quoted (by simp)
        · rw [if_neg hl]
          refine ⟨_, _, cs.take (m + 1), hend, ?_, rfl, rfl⟩
          rw [List.take_succ_cons, hdec]
          refine .opened ?_
          intro x hx
          exfalso
          apply hl
          have hxl : x.length = m := by
            have := congrArg List.length hx
            simp only [List.length_take, List.length_append, List.length_cons, List.length_nil] at this
            omega
          have : (cs.take (m + 1))[m]? = some '"' := by rw [hx, ← hxl]; simp
          rwa [List.getElem?_take_of_lt (by omega)] at this
      · simp only
        rw [if_neg (by simpa using hc)]
        refine ⟨_, _, (c :: cs).take e, hend, ?_, rfl, rfl⟩
        refine .bare ?_
        rw [List.head?_take]
        split
        · simp
        · simpa using hc

/-! ### Blanks -/

theorem isDelim_iff (c : Char) : isDelim c = true ↔ Blank c := by
  unfold isDelim Blank
  simp [or_assoc]

theorem skipBlanks_append {w s : List Char} (h : ∀ c ∈ w, Blank c) : skipBlanks (w ++ s) = skipBlanks s := by
  induction w with
  | nil => rfl
  | cons c w ih =>
    simp only [List.cons_append, skipBlanks]
    rw [if_pos ((isDelim_iff c).2 (h c (by simp)))]
    exact ih fun x hx => h x (by simp [hx])

theorem skipBlanks_stop {c : Char} {s : List Char} (h : ¬ Blank c) : skipBlanks (c :: s) = c :: s := by
  simp only [skipBlanks]
  rw [if_neg (fun h' => h ((isDelim_iff c).1 h'))]

theorem skipBlanks_suffix (s : List Char) : ∃ w, s = w ++ skipBlanks s ∧ ∀ c ∈ w, Blank c := by
  induction s with
  | nil => exact ⟨[], rfl, by simp⟩
  | cons c s ih =>
    simp only [skipBlanks]
    by_cases h : isDelim c = true
    · rw [if_pos h]
      obtain ⟨w, h1, h2⟩ := ih
      refine ⟨c :: w, by rw [List.cons_append, ← h1], ?_⟩
      intro x hx
      rcases List.mem_cons.1 hx with rfl | hx
      · exact (isDelim_iff x).1 h
      · exact h2 x hx
    · rw [if_neg h]
      exact ⟨[], rfl, by simp⟩

theorem skipBlanks_head (s : List Char) : ∀ c, (skipBlanks s).head? = some c → ¬ Blank c := by
  induction s with
  | nil => simp [skipBlanks]
  | cons c s ih =>
    simp only [skipBlanks]
    by_cases h : isDelim c = true
    · rw [if_pos h]; exact ih
    · rw [if_neg h]
      intro d hd hb
      simp only [List.head?_cons, Option.some.injEq] at hd
      subst hd
      exact h ((isDelim_iff c).2 hb)

/-! ### Extraction -/

/-- One step, for the text found. -/
theorem nextParam_eq (p : Char → Bool) (ex : List Char → Res (List Char)) (line text : List Char)
    (hs : skipBlanks line ≠ []) (ht : paramText (skipBlanks line) (paramEnd p (skipBlanks line) 0) = .ok text)
    (rest : List Char)
    (hr : restAt (skipBlanks line) (paramEnd p (skipBlanks line) 0) = rest) :
    nextParam p ex line =
      (if text = ['^'] then if rest.length < line.length then nextParam p ex rest else .hang
      else ex text >>= fun t => pure (some (t, rest))) := by
  rw [nextParam.eq_1]
  simp only
  rw [if_neg hs, ht, hr]

theorem nextParam_nil (p : Char → Bool) (ex : List Char → Res (List Char)) (line : List Char)
    (hs : skipBlanks line = []) : nextParam p ex line = .ok none := by
  rw [nextParam.eq_1]
  simp only
  rw [if_pos hs]

/-! ### Written arguments -/

theorem searchTok_word {p : Char → Bool} {a : List Char} {c : Char} (x : List Char) (h : ∀ d ∈ a, p d = false)
    (hc : '^' ∉ a) (hp : p c = true) : searchTok p (a ++ c :: x) = some a.length := by
  rw [searchTok.eq_1]
  have hs : strpbrk p (a ++ c :: x) = (a, c :: x) := strpbrk_hit h hp
  split
  · rename_i h0; rw [hs] at h0; simp at h0
  · rename_i h0
    rw [hs] at h0
    simp only [Prod.mk.injEq, List.cons.injEq] at h0
    obtain ⟨rfl, rfl, rfl⟩ := h0
    rw [if_pos]
    apply scanBack_no_caret
    intro d hd
    rintro rfl
    exact hc (List.mem_reverse.1 hd)

theorem searchTok_absent {p : Char → Bool} {a : List Char} (h : ∀ d ∈ a, p d = false) : searchTok p a = none := by
  rw [searchTok_none_iff]
  rintro i ⟨⟨c, hc, hp⟩, -⟩
  rw [h c (List.mem_of_getElem? hc)] at hp
  exact absurd hp (by simp)

theorem stdDelims_iff (c : Char) : stdDelims c = true ↔ Blank c ∨ c = '"' := by
  unfold stdDelims Blank
  rw [List.contains_iff_mem]
  simp only [List.mem_cons, List.not_mem_nil, or_false]
  grind

/-- What may follow an argument: nothing, or a blank. -/
def Stops (tail : List Char) : Prop := tail = [] ∨ ∃ b r, tail = b :: r ∧ Blank b

theorem restAt_eq (x tail : List Char) :
    restAt (x ++ tail) (if tail = [] then none else some x.length) = tail := by
  by_cases h : tail = []
  · rw [if_pos h]; simp [restAt, h]
  · rw [if_neg h]; simp [restAt]

theorem searchLast_close {E : List Char} (h : Lead '"' E) : searchLastTok (· == '"') (E ++ ['"']) = some E.length := by
  have hl := searchLastTok_last (· == '"') (by decide) (E ++ ['"'])
  have hhit : Hit (· == '"') (E ++ ['"']) E.length :=
    ⟨⟨'"', by simp, by simp⟩, (Free_prefix E ['"']).2 h.2⟩
  have hnot : ∀ j, E.length < j → ¬ Hit (· == '"') (E ++ ['"']) j := by
    rintro j hj ⟨⟨c, hc, -⟩, -⟩
    obtain ⟨h1, -⟩ := List.getElem?_eq_some_iff.1 hc
    simp at h1; omega
  cases hr : searchLastTok (· == '"') (E ++ ['"']) with
  | none => rw [hr] at hl; exact absurd hhit (hl _)
  | some j =>
    rw [hr] at hl
    congr 1
    rcases Nat.lt_trichotomy j E.length with h1 | h1 | h1
    · exact absurd hhit (hl.2 _ h1)
    · exact h1
    · exact absurd hl.1 (hnot j h1)

theorem paramEnd_quoted {E tail : List Char} (h : Lead '"' E) (ht : Stops tail) :
    paramEnd stdDelims ('"' :: (E ++ '"' :: tail)) 0 = if tail = [] then none else some (E.length + 2) := by
  rw [paramEnd.eq_1]
  have h1 : searchFrom stdDelims ('"' :: (E ++ '"' :: tail)) 0 = some 0 := by
    have := searchTok_word (p := stdDelims) (a := []) (c := '"') (E ++ '"' :: tail) (by simp) (by simp) (by decide)
    simp only [List.nil_append] at this
    simp [searchFrom, this]
  split
  · rename_i h0; rw [h1] at h0; exact absurd h0 (by simp)
  · rename_i i h0
    rw [h1] at h0
    injection h0 with h0
    subst h0
    rw [if_pos (by simp)]
    have h2 : searchFrom (· == '"') ('"' :: (E ++ '"' :: tail)) 1 = some (E.length + 1) := by
      simp [searchFrom, lead_search h tail]
    split
    · rename_i h0; rw [h2] at h0; exact absurd h0 (by simp)
    · rename_i j h0
      rw [h2] at h0
      injection h0 with h0
      subst h0
      have hdrop : ('"' :: (E ++ '"' :: tail)).drop (E.length + 1 + 1) = tail := by
        rw [List.drop_succ_cons, List.drop_append, List.drop_eq_nil_of_le (by omega)]
        have : E.length + 1 - E.length = 1 := by omega
        rw [this]; rfl
      rw [paramEnd.eq_1]
      rcases ht with rfl | ⟨b, r, rfl, hb⟩
      · have h3 : searchFrom stdDelims ('"' :: (E ++ ['"'])) (E.length + 1 + 1) = none := by
          simp only [searchFrom, hdrop]
          rw [searchTok_absent (by simp)]; rfl
        split
        · rfl
        · rename_i h0; rw [h3] at h0; exact absurd h0 (by simp)
      · have h3 : searchFrom stdDelims ('"' :: (E ++ '"' :: b :: r)) (E.length + 1 + 1) = some (E.length + 2) := by
          simp only [searchFrom, hdrop]
          have := searchTok_word (p := stdDelims) (a := []) (c := b) r (by simp) (by simp)
            ((stdDelims_iff b).2 (.inl hb))
          simp only [List.nil_append] at this
          rw [this]; simp
        split
        · rename_i h0; rw [h3] at h0; exact absurd h0 (by simp)
        · rename_i i h0
          rw [h3] at h0
          injection h0 with h0
          subst h0
          rw [if_neg]
          · simp
          · have : ('"' :: (E ++ '"' :: b :: r))[E.length + 2]? = some b := by
              rw [List.getElem?_cons_succ, List.getElem?_append_right (by omega)]
              have : E.length + 1 - E.length = 1 := by omega
              rw [this]; rfl
            rw [this]
            simp only [Option.some.injEq]
            rintro rfl
            revert hb; decide

theorem paramEnd_word {a tail : List Char} (hb : ∀ c ∈ a, ¬ Blank c) (hq : '"' ∉ a) (hc : '^' ∉ a) (ht : Stops tail) :
    paramEnd stdDelims (a ++ tail) 0 = if tail = [] then none else some a.length := by
  have hno : ∀ d ∈ a, stdDelims d = false := by
    intro d hd
    rw [← Bool.not_eq_true, stdDelims_iff]
    rintro (h | rfl)
    · exact hb d hd h
    · exact hq hd
  rw [paramEnd.eq_1]
  rcases ht with rfl | ⟨b, r, rfl, hbl⟩
  · have h3 : searchFrom stdDelims (a ++ []) 0 = none := by
      simp [searchFrom, searchTok_absent hno]
    split
    · rfl
    · rename_i h0; rw [h3] at h0; exact absurd h0 (by simp)
  · have h3 : searchFrom stdDelims (a ++ b :: r) 0 = some a.length := by
      simp [searchFrom, searchTok_word r hno hc ((stdDelims_iff b).2 (.inl hbl))]
    split
    · rename_i h0; rw [h3] at h0; exact absurd h0 (by simp)
    · rename_i i h0
      rw [h3] at h0
      injection h0 with h0
      subst h0
      rw [if_neg]
      · simp
      · simp only [List.getElem?_append_right (Nat.le_refl _), Nat.sub_self, List.getElem?_cons_zero,
          Option.some.injEq]
        rintro rfl
        revert hbl; decide

theorem escape_ne_caret {q : Char → Bool} (hq : q '^' = true) (a : List Char) : escape q a ≠ ['^'] := by
  cases a with
  | nil => simp [escape]
  | cons c a =>
    unfold escape
    by_cases h : q c = true
    · rw [if_pos h]; simp
    · rw [if_neg h]
      intro he
      injection he with h1 _
      subst h1
      exact h hq

theorem escape_none {q : Char → Bool} {a : List Char} (h : ∀ c ∈ a, q c = false) : escape q a = a := by
  induction a with
  | nil => rfl
  | cons c a ih =>
    unfold escape
    rw [if_neg (by simp [h c]), ih fun x hx => h x (by simp [hx])]

/-- One written argument is extracted. -/
theorem nextParam_written {q : Char → Bool} (hq : q '"' = true) (hqc : q '^' = true)
    (ex : List Char → Res (List Char)) {w x a tail : List Char} (hw : ∀ c ∈ w, Blank c) (hx : Written q x a)
    (ht : Stops tail) :
    nextParam stdDelims ex (w ++ (x ++ tail)) = (ex (escape q a) >>= fun t => pure (some (t, tail))) := by
  cases hx with
  | quoted =>
    have hL := Lead_escape (d := '"') (by decide) hq hqc a
    have hsk : skipBlanks (w ++ ('"' :: (escape q a ++ ['"']) ++ tail)) = '"' :: (escape q a ++ '"' :: tail) := by
      rw [skipBlanks_append hw, List.cons_append, skipBlanks_stop (by decide)]
      simp
    have hpe := paramEnd_quoted hL ht
    have hrest : restAt ('"' :: (escape q a ++ '"' :: tail)) (if tail = [] then none else some ((escape q a).length + 2)) =
        tail := by
      have := restAt_eq ('"' :: (escape q a ++ ['"'])) tail
      simpa using this
    have htext : paramText ('"' :: (escape q a ++ '"' :: tail))
        (if tail = [] then none else some ((escape q a).length + 2)) = .ok (escape q a) := by
      by_cases h : tail = []
      · rw [if_pos h, h]
        simp only [paramText, beq_self_eq_true, if_true, searchLast_close hL]
        rw [if_pos (by simp), List.take_left]
      · rw [if_neg h]
        simp only [paramText, beq_self_eq_true, if_true]
        rw [if_neg (by omega)]
        have e1 : (escape q a).length + 2 - 1 = (escape q a).length + 1 := by omega
        have e2 : (escape q a).length + 2 - 2 = (escape q a).length := by omega
        rw [e1, e2, List.getElem?_cons_succ, if_pos (by simp), if_neg (by omega), List.take_left]
    rw [nextParam_eq stdDelims ex _ (escape q a) (by rw [hsk]; simp) (by rw [hsk, hpe]; exact htext) tail
      (by rw [hsk, hpe]; exact hrest)]
    rw [if_neg (escape_ne_caret hqc a)]
  | word hne hb hnq hq0 =>
    have hc : '^' ∉ x := fun h => by rw [hq0 _ h] at hqc; exact absurd hqc (by simp)
    have hsk : skipBlanks (w ++ (x ++ tail)) = x ++ tail := by
      rw [skipBlanks_append hw]
      cases x with
      | nil => exact absurd rfl hne
      | cons c x => rw [List.cons_append, skipBlanks_stop (hb c (by simp))]
    have hpe := paramEnd_word hb hnq hc ht
    have hrest := restAt_eq x tail
    have htext : paramText (x ++ tail) (if tail = [] then none else some x.length) = .ok x := by
      cases x with
      | nil => exact absurd rfl hne
      | cons c x =>
        have hcq : (c == '"') = false := by
          simp only [beq_eq_false_iff_ne]; rintro rfl; exact hnq (by simp)
        by_cases h : tail = []
        · rw [if_pos h, h]
          simp [paramText, hcq]
        · rw [if_neg h]
          simp [paramText, hcq]
    rw [nextParam_eq stdDelims ex _ x (by rw [hsk]; simp [hne]) (by rw [hsk, hpe]; exact htext) tail
      (by rw [hsk, hpe]; exact hrest)]
    rw [if_neg (by rintro rfl; exact hc (by simp)), escape_none hq0]

theorem written_ne {q : Char → Bool} {x a : List Char} (h : Written q x a) : x ≠ [] := by
  cases h with
  | quoted => simp
  | word h => exact h

theorem allParams_line' {q : Char → Bool} (hq : q '"' = true) (hqc : q '^' = true)
    (ex : List Char → Res (List Char)) {line : List Char} {as : List (List Char)} (h : ParamLine q line as)
    (hex : ∀ a ∈ as, ex (escape q a) = .ok a) (v : List Char) (hv : ∀ c ∈ v, Blank c) :
    allParams stdDelims ex (v ++ line) = .ok as := by
  have hvw : ∀ {w : List Char}, (∀ c ∈ w, Blank c) → ∀ v : List Char, (∀ c ∈ v, Blank c) → ∀ c ∈ v ++ w, Blank c := by
    intro w hw v hv c hc
    rcases List.mem_append.1 hc with h | h
    · exact hv c h
    · exact hw c h
  induction h generalizing v with
  | @none w hw =>
    rw [allParams.eq_1, nextParam_nil]
    have := skipBlanks_append (s := []) (hvw hw v hv)
    rw [List.append_nil] at this
    rw [this]; rfl
  | @last w x a hw hx =>
    have h1 := nextParam_written hq hqc ex (hvw hw v hv) hx (tail := []) (.inl rfl)
    rw [hex a (by simp)] at h1
    simp only [List.append_nil, Res.ok_bind, Res.pure_eq] at h1
    rw [allParams.eq_1, ← List.append_assoc, h1]
    simp only
    rw [if_pos (by have := List.length_pos_iff.2 (written_ne hx); simp; omega), allParams.eq_1,
      nextParam_nil _ _ _ rfl]
    rfl
  | @cons w x a b rest as hw hx hb _ ih =>
    have h1 := nextParam_written hq hqc ex (hvw hw v hv) hx (tail := b :: rest) (.inr ⟨b, rest, rfl, hb⟩)
    rw [hex a (by simp)] at h1
    simp only [Res.ok_bind, Res.pure_eq] at h1
    rw [allParams.eq_1, List.append_assoc, ← List.append_assoc, h1]
    simp only
    rw [if_pos (by have := List.length_pos_iff.2 (written_ne hx); simp; omega)]
    have ih := ih (fun y hy => hex y (by simp [hy])) [b] (by simpa using hb)
    rw [List.singleton_append] at ih
    rw [ih]; rfl

theorem allParams_line {q : Char → Bool} (hq : q '"' = true) (hqc : q '^' = true)
    (ex : List Char → Res (List Char)) {line : List Char} {as : List (List Char)} (h : ParamLine q line as)
    (hex : ∀ a ∈ as, ex (escape q a) = .ok a) : allParams stdDelims ex line = .ok as :=
  allParams_line' hq hqc ex h hex [] (by simp)

theorem delayedExpand_escape (delayed : Bool) (loops : LocalBlock) (mods : List Char → Char → List Char → List Char)
    (getv : List Char → Res (Option (List Char))) {q : Char → Bool} (hc : q '^' = true) (hp : q '%' = true)
    (he : q '!' = true) (a : List Char) : delayedExpand delayed loops mods getv (escape q a) = .ok a := by
  have h1 : expandSpecial (getLocalVar loops mods) (escape q a) = escape q a :=
    (expandSpecial_iff _ _ _).2 (.done (Lead_escape (by decide) hp hc a).1)
  have hu : unEscape (escape q a) = a := by rw [unEscape_eq, unescape_escape q hc]
  unfold delayedExpand
  simp only [h1]
  cases delayed with
  | false => simp [hu]
  | true =>
    simp only [if_true]
    rw [expandVar_iff]
    have := Expands.done (esc := unEscape) (arg := codeArg '!' fun _ => none) (val := getv)
      (Lead_escape (d := '!') (by decide) he hc a).1
    rwa [hu] at this

end PBat
