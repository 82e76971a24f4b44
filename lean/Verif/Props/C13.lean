import Verif.Lemmas.Expand
/-
C13: percent expansion.
-/
namespace PBat
open Spec

/-- The expansion of a line is exactly the one given by the grammar `Spec.Expands`: literal pieces are copied,
doubled signs become one, argument references take precedence over variable names, variables are replaced by
their value, a sign without match is dropped, and values are never looked at again. -/
theorem C13_expansion (args : LocalBlock) (mods : List Char → Char → List Char → List Char)
    (getv : List Char → Res (Option (List Char))) (s t : List Char) :
    replaceVars args mods getv s = .ok t ↔
      Expands '%' id (fun s v rest => ArgStart s ∧ LocalValue args mods s v rest) getv s t := by
  unfold replaceVars
  rw [expandVar_iff]
  exact ⟨Expands_congr fun s v r => codeArg_iff args mods s v r,
    Expands_congr fun s v r => (codeArg_iff args mods s v r).symm⟩

/-- Text without percent sign is unchanged. -/
theorem C13_plain (args : LocalBlock) (mods : List Char → Char → List Char → List Char)
    (getv : List Char → Res (Option (List Char))) (s : List Char) (h : '%' ∉ s) :
    replaceVars args mods getv s = .ok s := by
  rw [C13_expansion]
  exact .done (without_of_not_mem h)

theorem argChar_name {c : Char} (h1 : ('0' ≤ c ∧ c ≤ '9') ∨ c = '*' ∨ c = '+') : ArgName c ∧ c ≠ '~' ∧ c ≠ '%' := by
  rcases h1 with ⟨ha, hb⟩ | rfl | rfl
  · have ha' : 48 ≤ c.toNat := ha
    have hb' : c.toNat ≤ 57 := hb
    refine ⟨⟨by omega, by omega⟩, ?_, ?_⟩ <;> rintro rfl <;> revert ha' hb' <;> decide
  · exact ⟨by unfold ArgName; decide, by decide, by decide⟩
  · exact ⟨by unfold ArgName; decide, by decide, by decide⟩

/-- A line written as a sequence of literal pieces, doubled signs, variables and arguments expands to the
concatenation of their meanings, whatever the values contain (percent signs included). -/
theorem C13_template (args : LocalBlock) (mods : List Char → Char → List Char → List Char)
    (getv : List Char → Res (Option (List Char))) (vars : List Char → Option (List Char))
    (items : List (List Char × Item)) (tail : List Char)
    (hlit : ∀ p ∈ items, Lead '%' p.1) (hitem : ∀ p ∈ items, p.2.Proper args) (htail : Without '%' tail)
    (hv : ∀ n, getv n = .ok (vars n)) :
    replaceVars args mods getv (items.flatMap (fun p => p.1 ++ p.2.text) ++ tail) =
      .ok (items.flatMap (fun p => p.1 ++ p.2.value args vars) ++ tail) := by
  rw [C13_expansion]
  induction items with
  | nil => exact .done htail
  | cons p items ih =>
    have ih := ih (fun q hq => hlit q (by simp [hq])) (fun q hq => hitem q (by simp [hq]))
    have hl := hlit p (by simp)
    have hi := hitem p (by simp)
    obtain ⟨pre, it⟩ := p
    simp only [List.flatMap_cons]
    cases it with
    | percent =>
      have := Expands.doubled (esc := id) hl ih
      simpa [Item.text, Item.value] using this
    | var n =>
      obtain ⟨h1, h2, h3⟩ := hi
      have := Expands.var (esc := id) (rest := items.flatMap (fun p => p.1 ++ p.2.text) ++ tail)
        (arg := fun s v rest => ArgStart s ∧ LocalValue args mods s v rest) hl h1 h2 (by
          rintro ⟨v, r, ⟨c, r', he, hc⟩, -⟩
          cases n with
          | nil => exact h1 rfl
          | cons c' n =>
            simp only [List.cons_append, List.cons.injEq] at he
            exact h3 ⟨c', n, rfl, by rw [he.1]; exact hc⟩) (hv n) ih
      simpa [Item.text, Item.value, List.append_assoc] using this
    | argument c =>
      obtain ⟨h1, h2⟩ := hi
      obtain ⟨v, hc⟩ := Option.isSome_iff_exists.1 h2
      have hname := argChar_name h1
      have := Expands.argument (esc := id) (s := c :: (items.flatMap (fun p => p.1 ++ p.2.text) ++ tail)) (v := v)
        (arg := fun s v rest => ArgStart s ∧ LocalValue args mods s v rest) hl
        (by simpa using hname.2.2)
        ⟨⟨c, _, rfl, by rcases h1 with h | h | h <;> simp [h]⟩, .plain (.simple hname.2.1 ⟨hname.1, hc⟩) hc⟩ ih
      simpa [Item.text, Item.value, hc, List.append_assoc] using this

/-- Doubling every percent sign of a text without caret protects it. -/
theorem C13_double (args : LocalBlock) (mods : List Char → Char → List Char → List Char)
    (getv : List Char → Res (Option (List Char))) (s : List Char) (h : '^' ∉ s) :
    replaceVars args mods getv (s.flatMap fun c => if c = '%' then ['%', '%'] else [c]) = .ok s := by
  rw [C13_expansion]
  suffices hg : ∀ pre : List Char, '%' ∉ pre → '^' ∉ pre →
      Expands '%' id (fun s v rest => ArgStart s ∧ LocalValue args mods s v rest) getv
        (pre ++ s.flatMap fun c => if c = '%' then ['%', '%'] else [c]) (pre ++ s) from hg [] (by simp) (by simp)
  induction s with
  | nil =>
    intro pre hp _
    rw [List.flatMap_nil, List.append_nil]; exact Expands.done (without_of_not_mem hp)
  | cons c s ih =>
    intro pre hp hc
    simp only [List.mem_cons, not_or] at h
    rw [List.flatMap_cons]
    by_cases hcp : c = '%'
    · subst hcp
      rw [if_pos rfl]
      exact .doubled (lead_of_not_mem hp hc) (ih h.2 [] (by simp) (by simp))
    · rw [if_neg hcp]
      have := ih h.2 (pre ++ [c]) (by simp [hp, Ne.symm hcp]) (by simp [hc, h.1])
      simpa using this

/-- An argument reference is taken even if what follows could be read as a variable name. -/
theorem C13_argument_first (args : LocalBlock) (mods : List Char → Char → List Char → List Char)
    (getv : List Char → Res (Option (List Char))) (pre : List Char) (c : Char) (v rest t : List Char)
    (hpre : Lead '%' pre) (hc : ('0' ≤ c ∧ c ≤ '9') ∨ c = '*' ∨ c = '+') (hv : args c = some v)
    (ht : replaceVars args mods getv rest = .ok t) :
    replaceVars args mods getv (pre ++ '%' :: c :: rest) = .ok (pre ++ v ++ t) := by
  rw [C13_expansion] at ht ⊢
  obtain ⟨h1, h2, h3⟩ := argChar_name hc
  exact .argument hpre (by simpa using h3)
    ⟨⟨c, rest, rfl, by rcases hc with h | h | h <;> simp [h]⟩, .plain (.simple h2 ⟨h1, hv⟩) hv⟩ ht

/-- Delayed expansion: loop variables are replaced first, then `!NAME!` is expanded in the result with escapes
removed from the literal pieces only. -/
theorem C13_delayed (loops : LocalBlock) (mods : List Char → Char → List Char → List Char)
    (getv : List Char → Res (Option (List Char))) (s t : List Char) :
    delayedExpand true loops mods getv s = .ok t ↔
      ∃ u, ExpandsSpecial (LocalValue loops mods) s u ∧ Expands '!' unescape (fun _ _ _ => False) getv u t := by
  unfold delayedExpand
  simp only [if_true]
  rw [expandVar_iff]
  have hesc : unEscape = unescape := funext unEscape_eq
  have harg : ∀ s v r, codeArg '!' (fun _ => none) s v r ↔ False := by
    intro s v r
    simp [codeArg]
  have hsp := (expandSpecial_iff (getLocalVar loops mods) s _).1 rfl
  rw [hesc]
  constructor
  · intro h
    exact ⟨_, ExpandsSpecial_congr (fun s v r => (getLocalVar_iff' loops mods s v r).symm) hsp, Expands_congr harg h⟩
  · rintro ⟨u, h1, h2⟩
    have := (expandSpecial_iff (getLocalVar loops mods) s u).2
      (ExpandsSpecial_congr (fun s v r => getLocalVar_iff' loops mods s v r) h1)
    rw [this]
    exact Expands_congr (fun s v r => (harg s v r).symm) h2

/-- Without delayed expansion only loop variables are replaced, then escapes are removed. -/
theorem C13_not_delayed (loops : LocalBlock) (mods : List Char → Char → List Char → List Char)
    (getv : List Char → Res (Option (List Char))) (s t : List Char) :
    delayedExpand false loops mods getv s = .ok t ↔
      ∃ u, ExpandsSpecial (LocalValue loops mods) s u ∧ t = unescape u := by
  unfold delayedExpand
  simp only [Bool.false_eq_true, if_false, Res.ok.injEq, unEscape_eq]
  have hsp := (expandSpecial_iff (getLocalVar loops mods) s _).1 rfl
  constructor
  · rintro rfl
    exact ⟨_, ExpandsSpecial_congr (fun s v r => (getLocalVar_iff' loops mods s v r).symm) hsp, rfl⟩
  · rintro ⟨u, h1, rfl⟩
    rw [(expandSpecial_iff (getLocalVar loops mods) s u).2
      (ExpandsSpecial_congr (fun s v r => getLocalVar_iff' loops mods s v r) h1)]

/-! ### A limit -/

/-- Substituted text is not expanded again by the same pass, but the value of a loop variable is scanned by the
`!` pass that follows. -/
theorem C13_loop_value_rescanned :
    ∃ (loops : LocalBlock) (s : List Char), loops 'I' = some "a!X!b".toList ∧
      delayedExpand true loops (fun _ _ v => v) (fun _ => .ok (some ['1'])) s = .ok "a1b".toList ∧
      s = "%I".toList := by
  refine ⟨fun c => if c = 'I' then some "a!X!b".toList else none, "%I".toList, rfl, ?_, rfl⟩
  rw [C13_delayed]
  refine ⟨"a!X!b".toList, ?_, ?_⟩
  · have := ExpandsSpecial.reference (arg := LocalValue (fun c => if c = 'I' then some "a!X!b".toList else none)
      (fun _ _ v => v)) (pre := []) (s := ['I']) (v := "a!X!b".toList) (rest := []) (t := [])
      (lead_of_not_mem (by simp) (by simp))
      (.plain (.simple (c := 'I') (v := "a!X!b".toList) (by decide) ⟨by unfold ArgName; decide, rfl⟩) rfl)
      (.done (without_of_not_mem (by simp)))
    exact this
  · exact Expands.var (pre := ['a']) (n := ['X']) (rest := ['b']) (t := ['b'])
      (v := some ['1']) (lead_of_not_mem (by decide) (by decide)) (by simp)
      (lead_of_not_mem (by decide) (by decide)) (by simp) rfl (.done (without_of_not_mem (by decide)))

/-! ### Examples -/

/-- `echo %1 is %USER% at 100%%`, with a value containing a percent reference. -/
example : replaceVars (fun c => if c = '1' then some "%USER%".toList else none) (fun _ _ v => v)
      (fun n => .ok (if n = "USER".toList then some "me %1".toList else none))
      "echo %1 is %USER% at 100%%".toList = .ok "echo %USER% is me %1 at 100%".toList := by
  have := C13_template (fun c => if c = '1' then some "%USER%".toList else none) (fun _ _ v => v)
    (fun n => .ok (if n = "USER".toList then some "me %1".toList else none))
    (fun n => (if n = "USER".toList then some "me %1".toList else none))
    [("echo ".toList, .argument '1'), (" is ".toList, .var "USER".toList), (" at 100".toList, .percent)] []
    (by
      intro p hp
      simp only [List.mem_cons, List.not_mem_nil, or_false] at hp
      rcases hp with rfl | rfl | rfl <;> exact lead_of_not_mem (by decide) (by decide))
    (by
      intro p hp
      simp only [List.mem_cons, List.not_mem_nil, or_false] at hp
      rcases hp with rfl | rfl | rfl
      · exact ⟨.inl (by decide), rfl⟩
      · refine ⟨by decide, lead_of_not_mem (by decide) (by decide), ?_⟩
        rintro ⟨c, r, he, hc⟩
        cases he
        revert hc; decide
      · trivial)
    (without_of_not_mem (by simp)) (fun _ => rfl)
  exact this

end PBat
