import Verif.Lemmas.Whole
import Verif.Lemmas.Load
/-
C47: commands of several lines are read as a whole.
-/
namespace PBat
open Spec

/-- Texts expanded one by one. -/
def Expanded (ex : List Char → Res (List Char)) : List (List Char) → List (List Char) → Prop
  | [], [] => True
  | c :: cs, t :: ts => ex c = .ok t ∧ Expanded ex cs ts
  | _, _ => False

theorem gather_whole {strict : Bool} {ex : List Char → Res (List Char)} {w : List Char} (hw : Whole strict w) :
    ∀ (cs ts rest : List (List Char)) (acc : List Char), Expanded ex cs ts → cs ≠ [] → (∀ t ∈ ts, t ≠ []) →
      acc ++ ts.flatten = w ++ ['\n'] → gather ex acc (cs ++ rest) = .ok (w ++ ['\n'], cs.length, some true) := by
  intro cs
  induction cs with
  | nil => intro ts rest acc _ h; exact absurd rfl h
  | cons c cs ih =>
    intro ts rest acc he _ hne hw'
    cases ts with
    | nil => exact he.elim
    | cons t ts =>
      obtain ⟨h1, h2⟩ := he
      rw [List.cons_append, gather]
      simp only [h1, bind, Res.bind]
      cases cs with
      | nil =>
        cases ts with
        | cons => exact h2.elim
        | nil =>
          have e : acc ++ t = w ++ ['\n'] := by simpa using hw'
          rw [e, checkBlocks_whole hw []]
          simp
      | cons c2 cs =>
        cases ts with
        | nil => exact h2.elim
        | cons t2 ts =>
          obtain ⟨v, d, hv⟩ : ∃ v d, (t2 :: ts).flatten = v ++ [d] := by
            have : (t2 :: ts).flatten ≠ [] := by
              have := hne t2 (by simp)
              simp [this]
            exact ⟨_, _, (List.dropLast_concat_getLast this).symm⟩
          have e : acc ++ t ++ v = w := by
            rw [List.flatten_cons, hv, ← List.append_assoc, ← List.append_assoc] at hw'
            have := List.append_inj_left' hw' rfl
            exact this
          have hp := checkBlocks_part (p := acc ++ t) (v := v) (by rw [e]; exact hw)
          obtain ⟨o, ho⟩ := checkBlocks_total (acc ++ t)
          rw [ho]
          have hot : o ≠ some true := by rintro rfl; exact hp ho
          have hih := ih (t2 :: ts) rest (acc ++ t) h2 (by simp) (fun x hx => hne x (by simp [hx])) (by simpa using hw')
          simp only
          rw [if_pos ⟨hot, by simp⟩, hih]
          rfl

/-- Consecutive lines whose expansions make up one command line, with blocks extended over several lines or line feeds
escaped, are read as this one command line, and the lines after it are left for later. -/
theorem C47_read_partial {strict : Bool} {ex : List Char → Res (List Char)} {w : List Char} (hw : Whole strict w)
    (sc : Script) (cs ts rest : List (List Char)) (hsc : sc.cmds.drop sc.curr = cs ++ rest) (hex : Expanded ex cs ts)
    (hne : ∀ t ∈ ts, t ≠ []) (htext : ts.flatten = w ++ ['\n']) :
    ∃ sc' : Script, getLine ex sc = .ok (.line w, sc') ∧ sc'.cmds.drop sc'.curr = rest ∧ sc'.cmds = sc.cmds ∧
      sc'.labels = sc.labels := by
  have hcs : cs ≠ [] := by
    rintro rfl
    cases ts with
    | nil => simp at htext
    | cons => exact hex.elim
  refine ⟨{ sc with curr := sc.curr + cs.length }, ?_, ?_, rfl, rfl⟩
  · have hg := gather_whole hw cs ts rest [] hex hcs hne (by simpa using htext)
    unfold getLine
    rw [hsc]
    obtain ⟨c, cs', rfl⟩ := List.exists_cons_of_ne_nil hcs
    simp only [List.cons_append] at hg ⊢
    rw [hg]
    simp [bind, Res.bind, pure, rmTrailingNl]
  · have : sc.cmds.drop (sc.curr + cs.length) = (sc.cmds.drop sc.curr).drop cs.length := by rw [List.drop_drop]
    simp only [this, hsc, List.drop_left]

/-- Reading always ends, without undefined behaviour, if expansion does; at the end of the script, and only there, the end
is reported; otherwise at least one line is consumed. -/
theorem C47_total (ex : List Char → Res (List Char)) (hex : ∀ s, ∃ t, ex s = .ok t) (sc : Script) :
    ∃ g sc', getLine ex sc = .ok (g, sc') ∧ (g = .eof ↔ sc.cmds.drop sc.curr = []) ∧ (g ≠ .eof → sc.curr < sc'.curr) := by
  unfold getLine
  split
  · next h => exact ⟨.eof, sc, rfl, by simp [h], by simp⟩
  · next c cs hd =>
    have key : ∀ (cs : List (List Char)) (acc : List Char), cs ≠ [] → ∃ t n o, gather ex acc cs = .ok (t, n, o) ∧ 0 < n := by
      intro cs
      induction cs with
      | nil => intro acc h; exact absurd rfl h
      | cons c cs ih =>
        intro acc _
        obtain ⟨t, ht⟩ := hex c
        obtain ⟨o, ho⟩ := checkBlocks_total (acc ++ t)
        rw [gather]
        simp only [ht, ho, bind, Res.bind]
        split
        · next h =>
          obtain ⟨t', n, o', h1, -⟩ := ih (acc ++ t) h.2
          exact ⟨t', n + 1, o', by rw [h1]; rfl, by omega⟩
        · exact ⟨_, 1, o, rfl, by omega⟩
    obtain ⟨t, n, o, h1, h2⟩ := key (c :: cs) [] (by simp)
    simp only [h1, bind, Res.bind]
    refine ⟨_, _, rfl, ?_, ?_⟩
    · rw [hd]
      simp only [List.cons_ne_nil, iff_false]
      split <;> simp
    · intro _
      simp only
      omega

/-- A block over three lines, followed by another command. -/
example : Whole true "if a==a (\necho 1\n) else echo 2".toList := by
  refine .last (.clause (w := []) (by simp) (by decide) (.block (t := "if a==a ".toList) (b := "\necho 1\n".toList)
    (c := " else echo 2".toList) (by decide) ?_ (.text (by decide))))
  refine .cons (l := []) (c := '\n') (b := "echo 1\n".toList) (.plain (w := []) (t := []) (by simp) (by simp) (by decide) (by decide))
    (.inr (.inr (.inl rfl))) ?_
  refine .cons (l := "echo 1".toList) (c := '\n') (b := []) (.plain (w := []) (by simp) (by decide) (by decide) (by decide))
    (.inr (.inr (.inl rfl))) ?_
  exact .last (.plain (w := []) (t := []) (by simp) (by simp) (by decide) (by decide))

/-- A line continued with a caret. -/
example : Whole true "echo a^\nb & (c)".toList := by
  refine .cons (l := "echo a^\nb ".toList) (c := '&') (b := " (c)".toList)
    (.plain (w := []) (by simp) (by decide) (by decide) (by decide)) (.inl rfl) ?_
  exact .last (.group (w := [' ']) (b := ['c']) (by decide)
    (.last (.plain (w := []) (by simp) (by decide) (by decide) (by decide))))

/-- The block is read from its three lines. -/
example (h : Whole true "if a==a (\necho 1\n) else echo 2".toList) :
    ∃ sc' : Script, getLine .ok (loadScript ["if a==a (\n".toList, "echo 1\n".toList, ") else echo 2\n".toList, "echo 3\n".toList] 0) =
      .ok (.line "if a==a (\necho 1\n) else echo 2".toList, sc') ∧ sc'.cmds.drop sc'.curr = ["echo 3\n".toList] :=
  (fun ⟨x, h1, h2, _⟩ => ⟨x, h1, h2⟩) <| C47_read_partial h _ ["if a==a (\n".toList, "echo 1\n".toList, ") else echo 2\n".toList]
    ["if a==a (\n".toList, "echo 1\n".toList, ") else echo 2\n".toList] _ (by decide +kernel) (by simp [Expanded])
    (by decide) (by decide +kernel)

end PBat
