import Verif.Lemmas.Var
/-
C12: substring expansion `%VAR:~b,l%`.

The full statement, including clamping, is `Spec.substring`.  The code agrees with it exactly on the requests
that `Spec.Fits`; on the others it gives the empty text (see the witnesses at the end), so the property is
proved only in part.
-/
namespace PBat
open Spec

/-- `%VAR:~b,l%`, for every value (any sequence of code points), every name without `:` and every pair of integer
numerals that cause no overflow: the documented range if the request fits, nothing otherwise. -/
theorem C12_substring_partial (cont : Char → Bool) (bi : List Char → List Char) (env : List Char → Option (List Char))
    (var tb tl : List Char) (b l : Int) (u : List (List Char)) (hvar : ':' ∉ var)
    (hb : Numeral tb b) (hl : Numeral tl l) (hval : varContent bi env var = some u.flatten)
    (hu : ∀ x ∈ u, CodePoint cont x) (hn : u.length < 2 ^ 31) (hbr : -2 ^ 31 ≤ b ∧ b < 2 ^ 31)
    (hlr : -2 ^ 31 < l ∧ l < 2 ^ 31) (hov : position u.length b + l < 2 ^ 31) :
    getVar cont bi env (var ++ ':' :: '~' :: (tb ++ ',' :: tl)) =
      .ok (some (if Fits u.length b l then substring u b l else [])) := by
  rw [getVar_sub cont bi env hvar hb hl hbr ⟨Int.le_of_lt hlr.1, hlr.2⟩, hval]
  simp only [substrVar_exact hu b l hn hbr hlr hov, res_bind_ok, res_pure]

/-- `%VAR:~b%`: from the position to the end; a start before the beginning gives nothing. -/
theorem C12_from_partial (cont : Char → Bool) (bi : List Char → List Char) (env : List Char → Option (List Char))
    (var tb : List Char) (b : Int) (u : List (List Char)) (hvar : ':' ∉ var)
    (hb : Numeral tb b) (hval : varContent bi env var = some u.flatten)
    (hu : ∀ x ∈ u, CodePoint cont x) (hn : u.length < 2 ^ 31) (hbr : -2 ^ 31 ≤ b ∧ b < 2 ^ 31) :
    getVar cont bi env (var ++ ':' :: '~' :: tb) =
      .ok (some (if -(u.length : Int) ≤ b then (u.drop (if b < 0 then u.length + b else b).toNat).flatten else [])) := by
  rw [getVar_sub1 cont bi env hvar hb hbr, hval]
  have hov : position u.length b + 0 < 2 ^ 31 := by unfold position; split <;> omega
  simp only [substrVar_exact hu b 0 hn hbr (by omega) hov, res_bind_ok, res_pure]
  congr 2
  by_cases h : -(u.length : Int) ≤ b
  · rw [if_pos h, if_pos (by unfold Fits; omega)]
    have hr : rangeEnd u.length b 0 = u.length := by
      unfold rangeEnd
      rw [if_neg (by decide)]; omega
    unfold substring
    rw [hr, List.take_of_length_le (by omega)]
    unfold rangeStart
    by_cases h0 : b < 0
    · rw [if_pos h0, if_pos h0]; congr 3; omega
    · rw [if_neg h0, if_neg h0]
      by_cases h1 : b ≤ u.length
      · congr 3; omega
      · rw [List.drop_eq_nil_of_le (by omega), List.drop_eq_nil_of_le (by omega)]
  · rw [if_neg h, if_neg (by unfold Fits; omega)]

/-- Whatever fits, the characters are never split: the result is the concatenation of consecutive whole code
points of the value. -/
theorem C12_never_split (cont : Char → Bool) (u : List (List Char)) (b l : Int) (t : List Char)
    (hu : ∀ x ∈ u, CodePoint cont x) (hn : u.length < 2 ^ 31) (hbr : -2 ^ 31 ≤ b ∧ b < 2 ^ 31)
    (hlr : -2 ^ 31 < l ∧ l < 2 ^ 31) (hov : position u.length b + l < 2 ^ 31)
    (h : substrVar cont u.flatten b l = .ok t) :
    ∃ p m s : List (List Char), u = p ++ m ++ s ∧ t = m.flatten := by
  rw [substrVar_exact hu b l hn hbr hlr hov] at h
  injection h with h
  by_cases hf : Fits u.length b l
  · rw [if_pos hf] at h
    unfold substring at h
    refine ⟨(u.take (rangeEnd u.length b l)).take (rangeStart u.length b),
      (u.take (rangeEnd u.length b l)).drop (rangeStart u.length b), u.drop (rangeEnd u.length b l), ?_, h.symm⟩
    rw [List.take_append_drop, List.take_append_drop]
  · rw [if_neg hf] at h
    exact ⟨u, [], [], by simp, h.symm⟩

/-- An undefined variable is reported as undefined. -/
theorem C12_undefined (cont : Char → Bool) (bi : List Char → List Char) (env : List Char → Option (List Char))
    (var tb tl : List Char) (b l : Int) (hvar : ':' ∉ var) (hb : Numeral tb b) (hl : Numeral tl l)
    (hval : varContent bi env var = none) (hbr : -2 ^ 31 ≤ b ∧ b < 2 ^ 31) (hlr : -2 ^ 31 ≤ l ∧ l < 2 ^ 31) :
    getVar cont bi env (var ++ ':' :: '~' :: (tb ++ ',' :: tl)) = .ok none := by
  rw [getVar_sub cont bi env hvar hb hl hbr hlr, hval]

/-- The quirk clause of `Fits` only excludes requests from the end with a positive length; all other requests
whose range lies in the text are answered as documented. -/
theorem C12_forward (cont : Char → Bool) (u : List (List Char)) (b l : Int)
    (hu : ∀ x ∈ u, CodePoint cont x) (hn : u.length < 2 ^ 31) (h0 : 0 ≤ b) (hb : b < 2 ^ 31)
    (hlr : -2 ^ 31 < l ∧ b + l ≤ u.length) :
    substrVar cont u.flatten b l = .ok (substring u b l) := by
  have hp : position u.length b = b := by unfold position; rw [if_neg (by omega)]
  rw [substrVar_exact hu b l hn (by omega) (by omega) (by rw [hp]; omega), if_pos]
  unfold Fits
  rw [hp]; omega

/-! ### Where the code departs from the statement -/

/-- Out-of-range lengths are not clamped: `%V:~0,10%` with `V=abc` gives nothing instead of `abc`. -/
theorem C12_length_not_clamped :
    ∃ (u : List (List Char)) (b l : Int), (∀ x ∈ u, CodePoint (fun _ => false) x) ∧
      substring u b l = "abc".toList ∧ substrVar (fun _ => false) u.flatten b l = .ok [] := by
  refine ⟨[['a'], ['b'], ['c']], 0, 10, ?_, by decide, by decide⟩
  intro x hx
  simp only [List.mem_cons, List.not_mem_nil, or_false] at hx
  rcases hx with rfl | rfl | rfl <;> exact ⟨_, [], rfl, rfl, by simp⟩

/-- Positions counted from the end are not clamped: `%V:~-5%` with `V=abc` gives nothing instead of `abc`. -/
theorem C12_start_not_clamped :
    ∃ (u : List (List Char)) (b l : Int), (∀ x ∈ u, CodePoint (fun _ => false) x) ∧
      substring u b l = "abc".toList ∧ substrVar (fun _ => false) u.flatten b l = .ok [] := by
  refine ⟨[['a'], ['b'], ['c']], -5, 0, ?_, by decide, by decide⟩
  intro x hx
  simp only [List.mem_cons, List.not_mem_nil, or_false] at hx
  rcases hx with rfl | rfl | rfl <;> exact ⟨_, [], rfl, rfl, by simp⟩

/-- Even a range inside the text can be refused: `%V:~-5,2%` with `V=abcdef` gives nothing instead of `bc`,
because the length is compared with the start position. -/
theorem C12_inside_refused :
    ∃ (u : List (List Char)) (b l : Int), (∀ x ∈ u, CodePoint (fun _ => false) x) ∧
      substring u b l = "bc".toList ∧ substrVar (fun _ => false) u.flatten b l = .ok [] := by
  refine ⟨[['a'], ['b'], ['c'], ['d'], ['e'], ['f']], -5, 2, ?_, by decide, by decide⟩
  intro x hx
  simp only [List.mem_cons, List.not_mem_nil, or_false] at hx
  rcases hx with rfl | rfl | rfl | rfl | rfl | rfl <;> exact ⟨_, [], rfl, rfl, by simp⟩

/-- `%V:~1,2147483647%` overflows a signed addition. -/
theorem C12_overflow : substrVar (fun _ => false) ['a', 'b'] 1 2147483647 = .ub := by decide

/-- `%V:~0,-2147483648%` takes the absolute value of the least integer. -/
theorem C12_abs_overflow : substrVar (fun _ => false) ['a', 'b'] 0 (-2147483648) = .ub := by decide

/-! ### Examples -/

/-- `%V:~-4,3%` with `V=abcdefgh`: the hypotheses hold and the result is `efg`. -/
example : Numeral "-4".toList (-4) ∧ Numeral "3".toList 3 ∧
    getVar (fun _ => false) (fun _ => []) (fun n => if n = ['V'] then some "abcdefgh".toList else none)
      "V:~-4,3".toList = .ok (some "efg".toList) :=
  ⟨.neg (ds := ['4']) ⟨by decide, by decide⟩, .pos (ds := ['3']) ⟨by decide, by decide⟩, by decide⟩

/-- Two-byte characters, marked here by a continuation byte `.`. -/
example : CodePoint (· == '.') ['e', '.'] ∧
    substrVar (· == '.') ([['a'], ['e', '.'], ['b'], ['o', '.']].flatten) 1 (-1) = .ok ['e', '.', 'b'] :=
  ⟨⟨'e', ['.'], rfl, rfl, by simp⟩, by decide⟩

end PBat
