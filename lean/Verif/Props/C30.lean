import Verif.Lemmas.Dir
/-
C30: canonicalisation of paths.
-/
namespace PBat
open Spec

/-- What canonicalisation gives, for every absolute path `/r`: `/` if `..` is met at the root; otherwise the path of
the names left by walking the components, and at the root nothing (if the last component is `..`) or `/`. -/
theorem C30_exact (r : List Char) :
    (Climbs [] (parts r) → canonicalize ('/' :: r) = ['/']) ∧
    (¬ Climbs [] (parts r) → walkDirs [] (parts r) ≠ [] →
      canonicalize ('/' :: r) = pathOf (walkDirs [] (parts r)).reverse) ∧
    (¬ Climbs [] (parts r) → walkDirs [] (parts r) = [] →
      canonicalize ('/' :: r) = if (parts r).getLast? = some ['.', '.'] then [] else ['/']) := by
  rw [canonicalize_abs]
  unfold canonResult
  refine ⟨fun h => if_pos h, fun h1 h2 => by rw [if_neg h1, if_neg h2], fun h1 h2 => by rw [if_neg h1, if_pos h2]⟩

/-- The canonical form of an absolute path that never goes above the root is reached by the same walk, and is made of
proper names only (none empty, `.`, `..` or with a separator), without trailing separator unless it is `/`.
Missing: paths with `..` at the root (`C30_above_root`), and the form of the root itself (`C30_root_empty`). -/
theorem C30_same_partial (r : List Char) (h : ¬ Climbs [] (parts r)) :
    ∃ names, (∀ c ∈ names, Name c) ∧ names.reverse = walkDirs [] (parts r) ∧
      (canonicalize ('/' :: r) = pathOf names ∨ names = [] ∧ canonicalize ('/' :: r) = ['/']) := by
  refine ⟨(walkDirs [] (parts r)).reverse, fun c hc => walk_names r [] (by simp) c (by simpa using hc), by simp, ?_⟩
  obtain ⟨-, h2, h3⟩ := C30_exact r
  by_cases hw : walkDirs [] (parts r) = []
  · rw [hw]
    rw [h3 h hw]
    split
    · exact .inl rfl
    · exact .inr ⟨rfl, rfl⟩
  · exact .inl (h2 h hw)

/-- The walk along the canonical form is the walk along the path. -/
theorem C30_walk_partial (r : List Char) (h : ¬ Climbs [] (parts r)) :
    walkDirs [] (parts (canonicalize ('/' :: r))) = walkDirs [] (parts r) ∧
      ¬ Climbs [] (parts (canonicalize ('/' :: r))) := by
  obtain ⟨names, h1, h2, h3⟩ := C30_same_partial r h
  rw [← h2]
  rcases h3 with e | ⟨rfl, e⟩
  · rw [e]
    by_cases hn : names = []
    · subst hn; decide
    · obtain ⟨r', e', hw⟩ := walk_path names h1 hn
      rw [e']
      have hp : parts ('/' :: r') = [] :: parts r' := by simp [parts]
      rw [hp, walk_skip (.inl rfl), climbs_skip (.inl rfl), (hw []).1]
      exact ⟨by simp, (hw []).2⟩
  · rw [e]; decide

/-- Canonicalising twice changes nothing more, for every absolute path. -/
theorem C30_idempotent (r : List Char) : canonicalize (canonicalize ('/' :: r)) = canonicalize ('/' :: r) := by
  rcases canonicalize_form r with h | h
  · rw [h]; decide +kernel
  · exact canonicalize_canon h

/-- The text never grows: the rewriting in place stays within the buffer. -/
theorem C30_length (p : List Char) : (canonicalize p).length ≤ p.length := by
  have := canonLoop_length [] p
  simpa [canonicalize] using this

/-- `..` at the root: everything after it is dropped, whatever it is; the result is the root although the path
designates another directory as soon as a name comes after. -/
theorem C30_above_root (r : List Char) : canonicalize ('/' :: '.' :: '.' :: '/' :: r) = ['/'] := by
  refine (C30_exact _).1 ?_
  have : parts ('.' :: '.' :: '/' :: r) = ['.', '.'] :: parts r := parts_append (w := ['.', '.']) (by decide) r
  rw [this]
  unfold Climbs
  rw [if_neg (by decide), if_pos rfl]
  exact .inl rfl

/-- For instance `/a/../../b`, which designates `/b`, becomes `/`. -/
theorem C30_above_root_example :
    canonicalize "/a/../../b".toList = ['/'] ∧ walkDirs [] (parts "/a/../../b".toList) = [['b']] := by decide +kernel

/-- A path that comes back to the root by a final `..` becomes the empty text, which designates no directory. -/
theorem C30_root_empty (c : List Char) (hc : Name c) : canonicalize ('/' :: (c ++ "/..".toList)) = [] := by
  have e : c ++ "/..".toList = c ++ '/' :: ['.', '.'] := rfl
  have hp : parts (c ++ "/..".toList) = [c, ['.', '.']] := by
    rw [e, parts_append hc.2.2.2, parts_word (by decide)]
  have hwk : walkDirs [] [c, ['.', '.']] = [] := by
    unfold walkDirs
    rw [if_neg (by rintro (h | h); exact hc.1 h; exact hc.2.1 h), if_neg hc.2.2.1]
    rfl
  have hcl : ¬ Climbs [] [c, ['.', '.']] := by
    unfold Climbs
    rw [if_neg (by rintro (h | h); exact hc.1 h; exact hc.2.1 h), if_neg hc.2.2.1]
    simp [Climbs]
  rw [(C30_exact _).2.2 (by rw [hp]; exact hcl) (by rw [hp]; exact hwk), hp]
  rfl

/-! ### The hypotheses are met -/

example : ¬ Climbs [] (parts "usr//./lib/../share/".toList) ∧
    canonicalize "/usr//./lib/../share/".toList = "/usr/share".toList := by decide +kernel

example : Climbs [] (parts "a/../..".toList) := by decide +kernel

end PBat
