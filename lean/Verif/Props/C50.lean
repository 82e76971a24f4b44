import Verif.Lemmas.Cd
import Verif.Lemmas.Locals
import Verif.Props.C14
/-
C50: `CD`.
-/
namespace PBat
open Spec

/-- The place a directory text designates: names from the root. -/
def Designates (cur : List Char) (names : List (List Char)) : Prop :=
  (∀ c ∈ names, Name c) ∧ (cur = pathOf names ∨ names = [] ∧ cur = ['/'])

/-- `CD` along a relative path that does not go above the root leads to the directory reached by walking the path from
the current directory, for every current directory and every path that exist and fit the buffer.  Missing: paths going
above the root (`C50_above`), and those longer than the buffer (`C50_truncated`). -/
theorem C50_relative_partial (cap : Nat) (ex : List Char → Bool) (cur p : List Char) (names : List (List Char))
    (hcur : Designates cur names) (hp : p.head? ≠ some '/') (hfit : cur.length + p.length + 1 < cap)
    (hex : ex (cur ++ '/' :: p) = true) (hup : ¬ Climbs names.reverse (parts p)) :
    ∃ d, setCurrentDir cap ex cur p = some d ∧ Designates d (walkDirs names.reverse (parts p)).reverse := by
  have habs : absolute p = false := by
    cases p with
    | nil => rfl
    | cons c p =>
      have hc : c ≠ '/' := by intro e; exact hp (by rw [e]; rfl)
      unfold absolute
      split
      · rename_i h; injection h with h _; exact absurd h hc
      · rename_i h; injection h with h _; exact absurd h hc
      · rfl
  have htake : (cur ++ '/' :: p).take (cap - 1) = cur ++ '/' :: p := List.take_of_length_le (by simp; omega)
  refine ⟨canonResult names.reverse p, ?_, ?_⟩
  · unfold setCurrentDir
    rw [habs]
    simp only [Bool.false_and, Bool.false_eq_true, if_false]
    rw [if_pos (by omega), htake, if_pos hex, canonicalize_from hcur.1 hcur.2]
  · refine ⟨fun c hc => walk_names p names.reverse (by simpa using hcur.1) c (by simpa using hc), ?_⟩
    unfold canonResult
    rw [if_neg hup]
    by_cases hw : walkDirs names.reverse (parts p) = []
    · rw [if_pos hw, hw]
      split
      · exact .inl rfl
      · exact .inr ⟨rfl, rfl⟩
    · rw [if_neg hw]
      exact .inl rfl

/-- `CD` to an absolute path that exists leads to the directory it names, wherever one is. -/
theorem C50_absolute_partial (cap : Nat) (ex : List Char → Bool) (cur r : List Char) (hr : r.head? ≠ some '/')
    (hfit : r.length + 1 < cap) (hex : ex ('/' :: r) = true) (hup : ¬ Climbs [] (parts r)) :
    ∃ d, setCurrentDir cap ex cur ('/' :: r) = some d ∧ Designates d (walkDirs [] (parts r)).reverse := by
  have habs : absolute ('/' :: r) = true := by
    unfold absolute
    split
    · rename_i h; injection h with _ h; rw [h] at hr; exact absurd rfl hr
    · rfl
    · rename_i h; exact absurd rfl (h r)
  refine ⟨canonResult [] r, ?_, ?_⟩
  · unfold setCurrentDir
    rw [habs, hex]
    simp only [Bool.and_self, if_true]
    rw [List.take_of_length_le (by simp; omega), canonicalize_abs]
  · refine ⟨fun c hc => walk_names r [] (by simp) c (by simpa using hc), ?_⟩
    unfold canonResult
    rw [if_neg hup]
    by_cases hw : walkDirs [] (parts r) = []
    · rw [if_pos hw, hw]
      split
      · exact .inl rfl
      · exact .inr ⟨rfl, rfl⟩
    · rw [if_neg hw]
      exact .inl rfl

/-- When nothing of that name exists, neither from the root nor below the current directory, `CD` is refused. -/
theorem C50_missing (cap : Nat) (ex : List Char → Bool) (cur p : List Char) (h1 : ex p = false)
    (h2 : ex ((cur ++ '/' :: p).take (cap - 1)) = false) : setCurrentDir cap ex cur p = none := by
  unfold setCurrentDir
  rw [h1, Bool.and_false, if_neg (by simp)]
  split
  · simp only [h2]; rfl
  · rfl

theorem first_param_ne (ex : List Char → Res (List Char)) (line : List Char)
    (hex : ∀ t, (∀ c ∈ t, c ∈ line) → ex t = .ok t) (hc : '^' ∉ line) (hne : ¬ ∀ c ∈ line, Blank c) :
    ∃ w raw rest text, line = w ++ (raw ++ rest) ∧ (∀ c ∈ w, Blank c) ∧ (∃ c, (raw ++ rest).head? = some c ∧ ¬ Blank c) ∧
      ParamText (rest = []) raw text ∧ nextParam stdDelims ex line = .ok (some (text, rest)) := by
  rcases C14_next stdDelims (by decide) (by decide) ex line with ⟨h, -⟩ | ⟨w, raw, rest, text, h1, h2, h3, h4, h5, h6⟩
  · exact absurd h hne
  · refine ⟨w, raw, rest, text, h1, h2, h3, h5, ?_⟩
    have hmem : ∀ c ∈ text, c ∈ line := by
      intro c hc
      rw [h1]
      cases h5 with
      | bare => simp [hc]
      | quoted => simp [hc]
      | opened => simp [hc]
    rw [h6, if_neg (by rintro rfl; exact hc (hmem _ (by simp))), hex text hmem]
    rfl

theorem not_option {text : List Char} (htext : ∀ x, text = ['/', x] → x ≠ '?' ∧ x ≠ 'd' ∧ x ≠ 'D') :
    text ≠ ['/', '?'] ∧ stricmp text ['/', 'd'] ≠ 0 := by
  refine ⟨by rintro rfl; exact (htext '?' rfl).1 rfl, fun e => ?_⟩
  have e := (stricmp_zero _ _).1 e
  have hlen := congrArg List.length e
  simp only [Spec.fold, List.length_map] at hlen
  obtain ⟨y, x, rfl⟩ : ∃ y x, text = [y, x] := by
    match text, hlen with
    | [y, x], _ => exact ⟨y, x, rfl⟩
  simp only [Spec.fold, List.map_cons, List.map_nil, List.cons.injEq, and_true] at e
  obtain ⟨e1, e2⟩ := e
  have e1 := congrArg Char.toNat e1
  have e2 := congrArg Char.toNat e2
  rw [toLower_toNat, show ('/'.toLower).toNat = 47 by decide] at e1
  rw [toLower_toNat, show ('d'.toLower).toNat = 100 by decide] at e2
  have hy : y = '/' := toNat_inj (by rw [show '/'.toNat = 47 by decide]; split at e1 <;> omega)
  have hx : x = 'd' ∨ x = 'D' := by
    split at e2
    · exact .inr (toNat_inj (by rw [show 'D'.toNat = 68 by decide]; omega))
    · exact .inl (toNat_inj (by rw [show 'd'.toNat = 100 by decide]; omega))
  subst hy
  obtain ⟨-, h2, h3⟩ := htext x rfl
  rcases hx with h | h
  · exact h2 h
  · exact h3 h

/-- The directory asked for by `CD` is the text written, whatever it contains (blanks, quotes within, …) except at the
ends, without the blanks around it. -/
theorem C50_text (ex : List Char → Res (List Char)) (w p w' : List Char)
    (hw : ∀ c ∈ w, c = ' ' ∨ c = '\t') (hw' : ∀ c ∈ w', c = ' ' ∨ c = '\t') (hp : p ≠ [])
    (hex : ∀ t, (∀ c ∈ t, c ∈ w ++ (p ++ w')) → ex t = .ok t) (hc : '^' ∉ p)
    (hf : ∀ c, p.head? = some c → ¬ Blank c ∧ c ≠ '"') (hl : ∀ c, p.getLast? = some c → c ≠ ' ' ∧ c ≠ '\t')
    (hopt : ∀ x r, p = '/' :: x :: r → x ≠ '?' ∧ x ≠ 'd' ∧ x ≠ 'D') :
    cdTarget ex (w ++ (p ++ w')) = .ok (.to p) := by
  obtain ⟨a, p', rfl⟩ : ∃ a p', p = a :: p' := by cases p with | nil => exact absurd rfl hp | cons a p' => exact ⟨a, p', rfl⟩
  obtain ⟨hb, hq⟩ := hf a rfl
  have hblank : ∀ v : List Char, (∀ c ∈ v, c = ' ' ∨ c = '\t') → ∀ c ∈ v, Blank c := by
    intro v hv c hcv
    rcases hv c hcv with rfl | rfl
    · exact .inl rfl
    · exact .inr (.inl rfl)
  have hnc : '^' ∉ w ++ (a :: p' ++ w') := by
    intro h
    rcases List.mem_append.1 h with h | h
    · rcases hw _ h with h | h <;> exact absurd h (by decide)
    · rcases List.mem_append.1 h with h | h
      · exact hc h
      · rcases hw' _ h with h | h <;> exact absurd h (by decide)
  obtain ⟨v, raw, rest, text, h1, h2, h3, h4, h5⟩ := first_param_ne ex _ hex hnc (by
    intro h; exact hb (h a (by simp)))
  have hsame : raw ++ rest = a :: p' ++ w' := by
    have e1 := skipBlanks_append (s := a :: p' ++ w') (hblank w hw)
    have e2 := skipBlanks_append (s := raw ++ rest) h2
    rw [h1, e2] at e1
    obtain ⟨c, hc1, hc2⟩ := h3
    have e3 : skipBlanks (raw ++ rest) = raw ++ rest := by
      cases hh : raw ++ rest with
      | nil => rfl
      | cons d t => rw [hh] at hc1; simp at hc1; subst hc1; exact skipBlanks_stop hc2
    rw [e3, List.cons_append, skipBlanks_stop hb] at e1
    rw [e1]; rfl
  have htext : ∀ x, text = ['/', x] → x ≠ '?' ∧ x ≠ 'd' ∧ x ≠ 'D' := by
    intro x hx
    have hbare : raw = text := by
      cases h4 with
      | bare => rfl
      | quoted => simp at hsame; exact absurd hsame.1.symm hq
      | opened => simp at hsame; exact absurd hsame.1.symm hq
    rw [hbare, hx] at hsame
    simp only [List.cons_append, List.nil_append, List.cons.injEq] at hsame
    obtain ⟨rfl, hs⟩ := hsame
    cases p' with
    | nil =>
      simp only [List.nil_append] at hs
      have := hw' x (by rw [← hs]; simp)
      rcases this with rfl | rfl <;> decide
    | cons y p' =>
      simp only [List.cons_append, List.cons.injEq] at hs
      obtain ⟨rfl, -⟩ := hs
      exact hopt x p' rfl
  obtain ⟨g1, g2⟩ := not_option htext
  have hmem : ∀ c ∈ a :: p' ++ w', c ∈ w ++ (a :: p' ++ w') := fun c hc => List.mem_append.2 (.inr hc)
  unfold cdTarget
  rw [h5]
  simp only [Res.ok_bind]
  rw [if_neg g1, if_neg g2, dropWhile_blanks hw (by
    intro c hc' hbl
    simp only [List.cons_append, List.head?_cons, Option.some.injEq] at hc'
    subst hc'
    rcases hbl with rfl | rfl
    · exact hb (.inl rfl)
    · exact hb (.inr (.inl rfl))), hex _ hmem]
  simp only [Res.ok_bind]
  rw [List.cons_append, skipBlanks_stop hb]
  split
  · rename_i h; injection h with h _; exact absurd h hq
  · have := cdCut_eq (q := false) (p := a :: p') (w := w') (by simp) (fun c hc => ⟨(hl c hc).1, (hl c hc).2, by simp⟩)
      (fun c hc => by rcases hw' c hc with h | h <;> simp [h])
    rw [List.cons_append] at this
    rw [this]; rfl

/-- The same for a text in quotes, which may begin with a blank. -/
theorem C50_quoted (ex : List Char → Res (List Char)) (w p w' : List Char)
    (hw : ∀ c ∈ w, c = ' ' ∨ c = '\t') (hw' : ∀ c ∈ w', c = ' ' ∨ c = '\t') (hp : p ≠ [])
    (hex : ∀ t, (∀ c ∈ t, c ∈ w ++ ('"' :: (p ++ '"' :: w'))) → ex t = .ok t) (hc : '^' ∉ p)
    (hl : ∀ c, p.getLast? = some c → c ≠ ' ' ∧ c ≠ '\t' ∧ c ≠ '"')
    (hopt : ∀ x r, p = '/' :: x :: r → x ≠ '?' ∧ x ≠ 'd' ∧ x ≠ 'D') :
    cdTarget ex (w ++ ('"' :: (p ++ '"' :: w'))) = .ok (.to p) := by
  have hblank : ∀ v : List Char, (∀ c ∈ v, c = ' ' ∨ c = '\t') → ∀ c ∈ v, Blank c := by
    intro v hv c hcv
    rcases hv c hcv with rfl | rfl
    · exact .inl rfl
    · exact .inr (.inl rfl)
  have hb : ¬ Blank '"' := by decide
  have hnc : '^' ∉ w ++ ('"' :: (p ++ '"' :: w')) := by
    intro h
    rcases List.mem_append.1 h with h | h
    · rcases hw _ h with h | h <;> exact absurd h (by decide)
    · rcases List.mem_cons.1 h with h | h
      · exact absurd h (by decide)
      · rcases List.mem_append.1 h with h | h
        · exact hc h
        · rcases List.mem_cons.1 h with h | h
          · exact absurd h (by decide)
          · rcases hw' _ h with h | h <;> exact absurd h (by decide)
  obtain ⟨v, raw, rest, text, h1, h2, h3, h4, h5⟩ := first_param_ne ex _ hex hnc (by
    intro h; exact hb (h '"' (by simp)))
  have hsame : raw ++ rest = '"' :: (p ++ '"' :: w') := by
    have e1 := skipBlanks_append (s := '"' :: (p ++ '"' :: w')) (hblank w hw)
    have e2 := skipBlanks_append (s := raw ++ rest) h2
    rw [h1, e2] at e1
    obtain ⟨c, hc1, hc2⟩ := h3
    have e3 : skipBlanks (raw ++ rest) = raw ++ rest := by
      cases hh : raw ++ rest with
      | nil => rfl
      | cons d t => rw [hh] at hc1; simp at hc1; subst hc1; exact skipBlanks_stop hc2
    rw [e3, skipBlanks_stop hb] at e1
    exact e1
  have htext : ∀ x, text = ['/', x] → x ≠ '?' ∧ x ≠ 'd' ∧ x ≠ 'D' := by
    intro x hx
    have hpre : ∃ z, text ++ z = p ++ '"' :: w' := by
      cases h4 with
      | bare hh =>
        cases raw with
        | nil => simp at hx
        | cons y raw => simp at hsame; simp [hsame.1] at hh
      | quoted => simp at hsame; exact ⟨_, hsame⟩
      | opened => simp at hsame; exact ⟨_, hsame⟩
    obtain ⟨z, hz⟩ := hpre
    rw [hx] at hz
    match p, hp, hz, hopt with
    | [y], _, hz, _ =>
      simp only [List.cons_append, List.nil_append, List.cons.injEq] at hz
      rw [hz.2.1]; decide
    | y :: y2 :: p', _, hz, hopt =>
      simp only [List.cons_append, List.nil_append, List.cons.injEq] at hz
      obtain ⟨rfl, rfl, -⟩ := hz
      exact hopt x p' rfl
  obtain ⟨g1, g2⟩ := not_option htext
  have hmem : ∀ c ∈ '"' :: (p ++ '"' :: w'), c ∈ w ++ ('"' :: (p ++ '"' :: w')) := fun c hc => List.mem_append.2 (.inr hc)
  unfold cdTarget
  rw [h5]
  simp only [Res.ok_bind]
  rw [if_neg g1, if_neg g2, dropWhile_blanks hw (by
    intro c hc' hbl
    simp only [List.head?_cons, Option.some.injEq] at hc'
    subst hc'
    rcases hbl with h | h <;> exact absurd h (by decide)), hex _ hmem]
  simp only [Res.ok_bind]
  rw [skipBlanks_stop hb]
  simp only
  rw [cdCut_eq (q := true) hp (fun c hc => ⟨(hl c hc).1, (hl c hc).2.1, fun _ => (hl c hc).2.2⟩) (by
    intro c hc
    rcases List.mem_cons.1 hc with rfl | hc
    · exact .inr (.inr ⟨rfl, rfl⟩)
    · rcases hw' c hc with h | h
      · exact .inl h
      · exact .inr (.inl h))]
  rfl

/-! ### What fails -/

/-- An absolute path that does not exist is looked for below the current directory: `CD /a` from `/b` leads to
`/b/a`. -/
theorem C50_absolute_falls_back :
    setCurrentDir 4096 (fun d => d == "/b//a".toList) "/b".toList "/a".toList = some "/b/a".toList := by
  decide +kernel

/-- Going above the root and down again ends at the root. -/
theorem C50_above :
    setCurrentDir 4096 (fun _ => true) "/a".toList "../../b".toList = some ['/'] ∧
    walkDirs [['a']] (parts "../../b".toList) = [['b']] := by decide +kernel

/-- A path too long for the buffer is cut, and leads elsewhere if what is left exists (for a buffer of 8 bytes). -/
theorem C50_truncated :
    setCurrentDir 8 (fun d => d == "/ab/cde".toList) "/ab".toList "cdefg".toList = some "/ab/cde".toList := by
  decide +kernel

/-- `CD ""` asks for a directory called `"`. -/
theorem C50_empty_quotes : cdTarget (fun t => .ok t) " \"\"".toList = .ok (.to ['"']) := by decide +kernel

/-! ### The hypotheses are met -/

example : Designates "/usr/lib".toList ["usr".toList, "lib".toList] ∧
    ¬ Climbs ["usr".toList, "lib".toList].reverse (parts "../share/./x".toList) ∧
    setCurrentDir 4096 (fun _ => true) "/usr/lib".toList "../share/./x".toList = some "/usr/share/x".toList :=
  ⟨⟨by decide, .inl (by decide)⟩, by decide +kernel, by decide +kernel⟩

example : cdTarget (fun t => .ok t) " My Documents  ".toList = .ok (.to "My Documents".toList) ∧
    cdTarget (fun t => .ok t) " \"My Documents\" ".toList = .ok (.to "My Documents".toList) := by decide +kernel

end PBat
