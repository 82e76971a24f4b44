import Verif.Model.Set
import Verif.Spec.SetCmd
import Verif.Props.C14
import Verif.Lemmas.Env
/-
Helper lemmas for SET.
-/
namespace PBat
open Spec

/-! ### The expansion keeps ordinary characters -/

theorem searchTok_ge_one {d c : Char} {t : List Char} {i : Nat} (hc : c ≠ d) (h : searchTok (· == d) (c :: t) = some i) :
    ∃ k, i = k + 1 := by
  cases i with
  | succ k => exact ⟨k, rfl⟩
  | zero =>
    have hf := searchTok_first (· == d) (c :: t)
    rw [h] at hf
    obtain ⟨⟨⟨x, hx, hd⟩, -⟩, -⟩ := hf
    simp only [List.getElem?_cons_zero, Option.some.injEq] at hx
    subst hx
    exact absurd (by simpa using hd) hc

theorem unEscape_keeps {c : Char} (hc : c ≠ '^') (t : List Char) : unEscape (c :: t) = c :: unEscape t := by
  rw [unEscape_eq, unEscape_eq]
  cases t with
  | nil => simp [unescape, hc]
  | cons d t => simp [unescape, hc]

theorem expandSpecial_keeps {args} {c : Char} (hc : c ≠ '%') (t : List Char) :
    ∃ u, expandSpecial args (c :: t) = c :: u := by
  rw [expandSpecial.eq_1]
  split
  · exact ⟨t, rfl⟩
  · rename_i i hs
    obtain ⟨k, rfl⟩ := searchTok_ge_one hc hs
    simp only
    split
    · exact ⟨_, by rw [List.take_succ_cons]; rfl⟩
    · exact ⟨_, by rw [List.take_succ_cons]; rfl⟩

theorem expandVar_total (d : Char) (esc : List Char → List Char) (args) (getv : List Char → Res (Option (List Char)))
    (hv : ∀ n, ∃ v, getv n = .ok v) (s : List Char) : ∃ t, expandVar d esc args getv s = .ok t := by
  fun_induction expandVar d esc args getv s with
  | case1 => exact ⟨_, rfl⟩
  | case2 s i hs pre body hb ih =>
    obtain ⟨t, ht⟩ := ih
    exact ⟨pre ++ d :: t, by rw [ht]; rfl⟩
  | case3 s i hs pre body hb a v k hm ih =>
    obtain ⟨t, ht⟩ := ih
    exact ⟨pre ++ v ++ t, by rw [ht]; rfl⟩
  | case4 s i hs pre body hb a hm j hj ih =>
    obtain ⟨t, ht⟩ := ih
    obtain ⟨v, hv⟩ := hv (body.take j)
    exact ⟨pre ++ v.getD [] ++ t, by rw [hv, ht]; rfl⟩
  | case5 s i hs pre body hb a hm hj ih =>
    obtain ⟨t, ht⟩ := ih
    exact ⟨pre ++ t, by rw [ht]; rfl⟩

theorem expandVar_keeps (args) (getv : List Char → Res (Option (List Char)))
    (hv : ∀ n, ∃ v, getv n = .ok v) {c : Char} (hc : c ≠ '!') (hc' : c ≠ '^') (t : List Char) :
    ∃ u, expandVar '!' unEscape args getv (c :: t) = .ok (c :: u) := by
  have hp : ∀ k, unEscape ((c :: t).take (k + 1)) = c :: unEscape (t.take k) := by
    intro k; rw [List.take_succ_cons, unEscape_keeps hc']
  have ht := expandVar_total '!' unEscape args getv hv
  rw [expandVar.eq_1]
  split
  · exact ⟨_, by rw [unEscape_keeps hc']⟩
  · rename_i i hs
    obtain ⟨k, rfl⟩ := searchTok_ge_one hc hs
    simp only [hp]
    split
    · obtain ⟨u, hu⟩ := ht (((c :: t).drop (k + 1 + 1)).drop 1)
      exact ⟨_, by rw [hu]; rfl⟩
    · split
      · rename_i v j hm
        obtain ⟨u, hu⟩ := ht (((c :: t).drop (k + 1 + 1)).drop j)
        exact ⟨_, by rw [hu]; rfl⟩
      · split
        · rename_i j hj
          obtain ⟨v, hv⟩ := hv (((c :: t).drop (k + 1 + 1)).take j)
          obtain ⟨u, hu⟩ := ht (((c :: t).drop (k + 1 + 1)).drop (j + 1))
          exact ⟨_, by rw [hv, hu]; rfl⟩
        · obtain ⟨u, hu⟩ := ht ((c :: t).drop (k + 1 + 1))
          exact ⟨_, by rw [hu]; rfl⟩

/-- The expansion of the interpreter keeps ordinary characters, whatever the variables. -/
theorem delayedExpand_keeps (delayed : Bool) (loops : LocalBlock) (mods : List Char → Char → List Char → List Char)
    (getv : List Char → Res (Option (List Char))) (hv : ∀ n, ∃ v, getv n = .ok v) :
    Keeps (delayedExpand delayed loops mods getv) := by
  refine ⟨?_, ?_⟩
  rotate_left
  · intro t ht
    have h := delayedExpand_escape delayed loops mods getv (q := fun c => c == '^' || c == '%' || c == '!') rfl rfl rfl t
    rwa [escape_none] at h
    intro c hc
    have := ht c hc
    simpa [and_assoc] using this
  intro c t hc
  simp only [List.mem_cons, List.not_mem_nil, or_false, not_or] at hc
  obtain ⟨u, hu⟩ := expandSpecial_keeps (args := getLocalVar loops mods) hc.2.1 t
  unfold delayedExpand
  simp only [hu]
  cases delayed with
  | false => exact ⟨_, by simp only [Bool.false_eq_true, if_false]; rw [unEscape_keeps hc.1]⟩
  | true =>
    simp only [if_true]
    exact expandVar_keeps _ getv hv hc.2.2 hc.1 u

/-! ### The first parameter -/

theorem quotesBefore_one (r : List Char) : quotesBefore ('"' :: r) 1 = 1 := by
  have h : QuoteAt ('"' :: r) 0 := ⟨rfl, by simp [Free, caretsBefore]⟩
  have e : List.range 1 = [0] := rfl
  unfold quotesBefore
  rw [e, List.filter_cons_of_pos (by simpa using h)]
  rfl

theorem first_param {ex : List Char → Res (List Char)} (hk : Keeps ex) {w s : List Char} (hw : ∀ c ∈ w, Blank c)
    (hb : Begins s) : ∃ c u rest, nextParam stdDelims ex (w ++ s) = .ok (some (c :: u, rest)) ∧ c ≠ '/' := by
  have hsk : skipBlanks (w ++ s) = s := by
    rw [skipBlanks_append hw]
    rcases hb with ⟨c, r, rfl, hc⟩ | ⟨c, r, rfl, -⟩
    · exact skipBlanks_stop hc.1
    · exact skipBlanks_stop (by decide)
  have hne : s ≠ [] := by rcases hb with ⟨c, r, rfl, -⟩ | ⟨c, r, rfl, -⟩ <;> simp
  obtain ⟨raw, rest, text, ⟨hs, hend⟩, htext, h1, h2⟩ := paramText_spec (p := stdDelims) (by decide) (by decide) s hne
  suffices ∃ c t, text = c :: t ∧ c ∉ ['/', '"', '^', '%', '!'] by
    obtain ⟨c, t, rfl, hc⟩ := this
    simp only [List.mem_cons, List.not_mem_nil, or_false, not_or] at hc
    obtain ⟨u, hu⟩ := hk.first c t (by simp [hc])
    refine ⟨c, u, rest, ?_, hc.1⟩
    rw [nextParam_eq stdDelims ex (w ++ s) (c :: t) (by rw [hsk]; exact hne) (by rw [hsk]; exact h1) rest (by rw [hsk]; exact h2),
      if_neg (by intro h; simp at h; exact hc.2.2.1 h.1), hu]
    rfl
  have hraw : rest ≠ [] → ¬ (raw.length = 0 ∧ ¬ stdDelims (s.head?.getD 'x') = true) := by
    rintro hr ⟨h0, hd⟩
    rw [if_neg hr] at hend
    obtain ⟨⟨⟨⟨c, hc, hp⟩, -⟩, -⟩, -⟩ := hend
    rw [h0] at hc
    cases s with
    | nil => exact hne rfl
    | cons d s =>
      simp only [List.getElem?_cons_zero, Option.some.injEq] at hc
      subst hc
      simp only [Bool.and_eq_true] at hp
      exact hd hp.1
  rcases hb with ⟨c, r, rfl, hc⟩ | ⟨c, r, rfl, hc⟩
  · have hrne : raw ≠ [] := by
      rintro rfl
      simp only [List.nil_append] at hs
      refine hraw (by rw [← hs]; simp) ⟨rfl, ?_⟩
      simp only [List.head?_cons, Option.getD_some]
      rw [stdDelims_iff]
      rintro (h | h)
      · exact hc.1 h
      · exact hc.2 (by simp [h])
    cases raw with
    | nil => exact absurd rfl hrne
    | cons d raw =>
      simp only [List.cons_append, List.cons.injEq] at hs
      obtain ⟨rfl, -⟩ := hs
      refine ⟨c, raw, ?_, hc.2⟩
      have hq : c ≠ '"' := fun h => hc.2 (by simp [h])
      cases htext with
      | bare => rfl
      | quoted => exact absurd rfl hq
      | opened => exact absurd rfl hq
  · have hlen : 2 ≤ raw.length ∨ rest = [] := by
      by_cases hr : rest = []
      · exact .inr hr
      · left
        rw [if_neg hr] at hend
        obtain ⟨⟨⟨⟨x, hx, hp⟩, -⟩, hout⟩, -⟩ := hend
        rcases hl : raw.length with _ | _ | k
        · rw [hl] at hx
          simp only [List.getElem?_cons_zero, Option.some.injEq] at hx
          subst hx
          simp at hp
        · rw [hl] at hout
          have := hout.1
          rw [quotesBefore_one] at this
          omega
        · omega
    have hraw2 : ∃ m, raw = '"' :: c :: m := by
      rcases hlen with h | h
      · match raw, h with
        | a :: b :: m, _ =>
          simp only [List.cons_append, List.cons.injEq] at hs
          obtain ⟨rfl, rfl, -⟩ := hs
          exact ⟨m, rfl⟩
      · subst h
        rw [List.append_nil] at hs
        exact ⟨r, hs.symm⟩
    obtain ⟨m, rfl⟩ := hraw2
    have hq : c ≠ '"' := fun h => hc (by simp [h])
    generalize hx : '"' :: c :: m = x at htext
    cases htext with
    | bare h => subst hx; simp at h
    | quoted =>
      simp only [List.cons.injEq, true_and] at hx
      cases text with
      | nil => simp at hx; exact absurd hx.1 hq
      | cons d m' =>
        simp only [List.cons_append, List.cons.injEq] at hx
        obtain ⟨rfl, -⟩ := hx
        exact ⟨c, m', rfl, hc⟩
    | opened =>
      simp only [List.cons.injEq, true_and] at hx
      subst hx
      exact ⟨c, m, rfl, hc⟩

/-! ### Cutting -/

theorem splitEq_app {n : List Char} (h : '=' ∉ n) (v : List Char) : splitEq (n ++ '=' :: v) = some (n, v) := by
  unfold splitEq
  have hn : ∀ c ∈ n, (c != '=') = true := by
    intro c hc
    simp only [bne_iff_ne, ne_eq]
    rintro rfl
    exact h hc
  rw [if_pos (by simp), List.takeWhile_append_of_pos hn, List.dropWhile_append_of_pos hn]
  simp

theorem splitEq_some {s n v : List Char} (h : splitEq s = some (n, v)) : s = n ++ '=' :: v ∧ '=' ∉ n := by
  unfold splitEq at h
  split at h
  · rename_i hm
    obtain ⟨a, b, rfl, ha⟩ : ∃ a b, s = a ++ '=' :: b ∧ '=' ∉ a := by
      clear h
      induction s with
      | nil => simp at hm
      | cons c s ih =>
        by_cases hc : c = '='
        · subst hc; exact ⟨[], s, rfl, by simp⟩
        · obtain ⟨a, b, rfl, ha⟩ := ih (by simpa [Ne.symm hc] using hm)
          exact ⟨c :: a, b, rfl, by simp [Ne.symm hc, ha]⟩
    have := splitEq_app ha b
    unfold splitEq at this
    rw [if_pos hm] at this
    rw [this] at h
    simp only [Option.some.injEq, Prod.mk.injEq] at h
    obtain ⟨rfl, rfl⟩ := h
    exact ⟨rfl, ha⟩
  · cases h

theorem cutLastQuote_app {a j : List Char} (h : '"' ∉ j) : cutLastQuote (a ++ '"' :: j) = some a := by
  unfold cutLastQuote
  rw [if_pos (by simp)]
  have hb : ∀ c ∈ j.reverse, (c != '"') = true := by
    intro c hc
    simp only [List.mem_reverse] at hc
    simp only [bne_iff_ne, ne_eq]
    rintro rfl
    exact h hc
  rw [List.reverse_append, List.reverse_cons, List.append_assoc, List.dropWhile_append_of_pos hb]
  simp

theorem setQuotes_pair {a j : List Char} (h : '"' ∉ j) : setQuotes ('"' :: (a ++ '"' :: j)) = a := by
  simp only [setQuotes]
  rw [cutLastQuote_app h]; rfl

theorem setQuotes_plain {t : List Char} (h : t.head? = some '"' → '"' ∉ t.tail) : setQuotes t = t := by
  unfold setQuotes
  split
  · rename_i r
    have := h rfl
    unfold cutLastQuote
    rw [if_neg (by simpa using this)]
    rfl
  · rfl

/-- The text assigns exactly when the code finds a name and a value. -/
theorem setsTo_iff (t n v : List Char) : SetsTo t n v ↔ splitEq (setQuotes t) = some (n, v) := by
  constructor
  · intro h
    cases h with
    | plain h1 h2 => rw [setQuotes_plain h2, splitEq_app h1]
    | quoted h1 h2 => rw [setQuotes_pair h2, splitEq_app h1]
  · intro h
    by_cases hq : t.head? = some '"' ∧ '"' ∈ t.tail
    · cases t with
      | nil => simp at hq
      | cons c t =>
        simp only [List.head?_cons, Option.some.injEq, List.tail_cons] at hq
        obtain ⟨rfl, hm⟩ := hq
        obtain ⟨a, j, rfl, hj⟩ := exists_last hm
        rw [setQuotes_pair hj] at h
        obtain ⟨rfl, hn⟩ := splitEq_some h
        exact .quoted hn hj
    · have hq' : t.head? = some '"' → '"' ∉ t.tail := fun h1 h2 => hq ⟨h1, h2⟩
      rw [setQuotes_plain hq'] at h
      obtain ⟨rfl, hn⟩ := splitEq_some h
      exact .plain hn hq'

end PBat
