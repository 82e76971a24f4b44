import Verif.Lemmas.Locals
/-
C10: variables whose name starts with an underscore are local to the called procedure (DEF).
-/
namespace PBat
open Spec

/-- For every conforming `qsort`/`bsearch`, every table met during a run (at any call depth), every body
(updates and nested calls): the call does not fail, and after the return a local name has its value from
before the call unless the body marked it as inheritable; marked and non-local names keep the callee's value.
Missing (all refuted below): names that start neither with `_` nor with an upper case letter
(`C10_lower_case_breaks`, `C10_digit_breaks`), names marked and then removed (`C10_stale_inherit`), pointers
above 2^31 (C08). -/
theorem C10_return_partial (L : LibC) (marked : List Char → Prop) (e : EnvBuf) (h : PReach L marked e)
    (addr : Var → Int) (body : List PCmd) (ha : ∀ v, 0 < addr v) (hn : PNiceAll body)
    (hm : ∀ k, MarksAny k body → marked k) (hr : ∀ k, RemovesAny k body → ¬ marked k) :
    ∃ e1 e2, pRun L (pushLocals L e addr) body = some e1 ∧ pStep L e (.call addr body) = some e2 ∧
      ∀ n : CPtr, 0 < n.addr →
        (LocalName (fold n.txt) → ¬ MarksAny (fold n.txt) body → getEnv L e2 n = getEnv L e n) ∧
        (¬ LocalName (fold n.txt) ∨ MarksAny (fold n.txt) body → getEnv L e2 n = getEnv L e1 n) := by
  obtain ⟨A, hA⟩ := PReach.rep h
  obtain ⟨e1, he1, h1⟩ := pRun_spec (L := L) body (pushLocals_lspec (L := L) hA ha) hn hm hr
  have h2 := popLocals_lspec (L := L) h1
  refine ⟨e1, popLocals L e1, he1, by simp only [pStep, he1, Option.map_some], ?_⟩
  intro n hna
  rw [getEnv_lspec h2 hna, getEnv_lspec hA hna, getEnv_lspec h1 hna]
  constructor
  · intro hl hmk
    simp only [if_pos hl]
    rw [call_unmarked _ body hl hmk]
  · intro hor
    by_cases hl : LocalName (fold n.txt)
    · simp only [if_pos hl]
      rcases hor with h | h
      · exact absurd hl h
      · exact call_marked _ body h (fun hrm => hr _ hrm (hm _ h)) _
    · simp only [if_neg hl]

/-- A table and a body that meet the hypotheses: `_x` is saved and restored, `_y` is inherited. -/
example : ∃ e, initEnv stdLib [⟨5, "_x=1".toList⟩, ⟨9, "HOME=/root".toList⟩] = some e ∧
    PReach stdLib (fun k => k = "_y".toList) e ∧
    PNiceAll [.set ⟨1, "_x".toList⟩ "2".toList 3 false, .set ⟨1, "_Y".toList⟩ "3".toList 4 true,
      .unset ⟨1, "_x".toList⟩, .call (fun _ => 7) [.set ⟨1, "_x".toList⟩ "5".toList 6 false]] := by
  refine ⟨_, rfl, .init (env := [⟨5, "_x=1".toList⟩, ⟨9, "HOME=/root".toList⟩]) (by decide) (by decide) (by decide)
    ?_ rfl, ?_⟩
  · intro s hs
    simp only [List.mem_cons, List.not_mem_nil, or_false] at hs
    rcases hs with rfl | rfl
    · exact .inl rfl
    · exact .inr ⟨'H', rfl, by decide, by decide⟩
  · simp only [PNiceAll, PNice]
    exact ⟨⟨by decide, by decide, .inl rfl⟩, ⟨by decide, by decide, .inl rfl⟩, by decide,
      ⟨fun _ => by decide, ⟨by decide, by decide, .inl rfl⟩, trivial⟩, trivial⟩

/-- Violation: with a variable named in lower case in the table, the local variable is neither found nor
restored, because `pBat_EnvCompLocal` is ordered the other way round than the table. -/
theorem C10_lower_case_breaks : ∃ (e e2 : EnvBuf) (addr : Var → Int) (body : List PCmd) (n : CPtr),
    initEnv stdLib [⟨5, "_x=1".toList⟩, ⟨9, "abc=2".toList⟩] = some e ∧
    pStep stdLib e (.call addr body) = some e2 ∧ LocalName (fold n.txt) ∧ (∀ k, ¬ MarksAny k body) ∧
    getEnv stdLib e n = some "1".toList ∧ getEnv stdLib e2 n = some "7".toList :=
  ⟨_, _, fun _ => 3, [.set ⟨1, "_x".toList⟩ "7".toList 4 false], ⟨1, "_x".toList⟩, rfl, rfl, by decide,
    by simp [MarksAny, Marks], rfl, rfl⟩

/-- Violation: the same with a name starting with a digit. -/
theorem C10_digit_breaks : ∃ (e e2 : EnvBuf) (addr : Var → Int) (body : List PCmd) (n : CPtr),
    initEnv stdLib [⟨4, "0A=1".toList⟩, ⟨5, "1A=1".toList⟩, ⟨9, "_x=1".toList⟩] = some e ∧
    pStep stdLib e (.call addr body) = some e2 ∧ LocalName (fold n.txt) ∧ (∀ k, ¬ MarksAny k body) ∧
    getEnv stdLib e n = some "1".toList ∧ getEnv stdLib e2 n = some "7".toList :=
  ⟨_, _, fun _ => 3, [.set ⟨1, "_x".toList⟩ "7".toList 4 false], ⟨1, "_x".toList⟩, rfl, rfl, by decide,
    by simp [MarksAny, Marks], rfl, rfl⟩

/-- Violation: a variable created in the slot of a removed inheritable variable is inherited too. -/
theorem C10_stale_inherit : ∃ (e e2 : EnvBuf) (addr : Var → Int) (body : List PCmd) (n : CPtr),
    initEnv stdLib [⟨5, "A=1".toList⟩] = some e ∧ PNiceAll body ∧
    pStep stdLib e (.call addr body) = some e2 ∧ LocalName (fold n.txt) ∧ ¬ MarksAny (fold n.txt) body ∧
    getEnv stdLib e n = none ∧ getEnv stdLib e2 n = some "7".toList := by
  refine ⟨_, _, fun _ => 3, [.set ⟨1, "_a".toList⟩ "1".toList 4 true, .unset ⟨1, "_a".toList⟩,
    .set ⟨1, "_b".toList⟩ "7".toList 4 false], ⟨1, "_b".toList⟩, rfl, ?_, rfl, by decide, ?_, rfl, rfl⟩
  · simp only [PNiceAll, PNice]
    exact ⟨⟨by decide, by decide, .inl rfl⟩, by decide, ⟨by decide, by decide, .inl rfl⟩, trivial⟩
  · simp only [MarksAny, Marks]
    decide

end PBat
