import Verif.Model.ForSimple
import Verif.Spec.ForSimple
import Verif.Lemmas.Args
/-
C71: the simple FOR visits the chunks of its set.
-/
namespace PBat
open Spec

theorem chunkGap_simple : (fun c => ChunkGap c && c != '"') = (fun c => simpleDelims c && c != '"') := by
  funext c
  unfold ChunkGap simpleDelims
  by_cases h : c = '"'
  · subst h; decide
  · have : (c == '"') = false := by simpa using h
    simp only [List.contains_cons, List.contains_nil, this, Bool.or_false]

theorem blank_chunkGap {c : Char} (h : ChunkGap c = false) : ¬ Blank c := by
  rintro (rfl | rfl | rfl | rfl | rfl) <;> revert h <;> decide

theorem chunks_empty {gap : Char → Prop} {cs : List (List Char)} (h : Chunks gap [] cs) : cs = [] := by
  generalize hs : ([] : List Char) = s at h
  cases h with
  | nil => rfl
  | cons _ hr _ _ =>
    obtain ⟨c, r, rfl, -⟩ := hr
    simp at hs

theorem nextChunk_cons {w raw rest : List Char} (hw : ∀ c ∈ w, Blank c) (hr : ∃ c r, raw = c :: r ∧ ChunkGap c = false)
    (he : ParamEnd ChunkGap (raw ++ rest) raw rest) :
    nextChunk (some (w ++ (raw ++ rest))) = some (raw, if rest = [] then none else some rest) := by
  obtain ⟨c, r, rfl, hc⟩ := hr
  have hsk : skipBlanks (w ++ (c :: r ++ rest)) = c :: r ++ rest := by
    rw [skipBlanks_append hw]
    exact skipBlanks_stop (blank_chunkGap hc)
  have hf := paramEnd_first (p := simpleDelims) (by decide) (by decide) (c :: r ++ rest) 0 (.inl rfl) (by simp [quotesBefore])
  have h2 := he.2
  rw [chunkGap_simple] at h2
  have hu : paramEnd simpleDelims (c :: r ++ rest) 0 = if rest = [] then none else some (c :: r).length := by
    refine IsFirst_unique ?_ h2
    unfold FirstFrom at hf
    simpa using hf
  unfold nextChunk
  simp only
  rw [hsk, if_neg (by simp), hu]
  by_cases hre : rest = []
  · subst hre
    simp
  · rw [if_neg hre]
    simp only
    rw [List.take_left, List.drop_left, if_neg hre]

theorem nextChunk_end {w : List Char} (hw : ∀ c ∈ w, Blank c) : nextChunk (some w) = none := by
  have := skipBlanks_append (s := []) hw
  rw [List.append_nil] at this
  unfold nextChunk
  simp only
  rw [this, if_pos (by rfl)]

theorem fileLoop_append {σ : Type} (c : Char) (body : LocalBlock × σ → Res ((LocalBlock × σ) × Bool)) :
    ∀ (a b : List (List Char)) (st : LocalBlock × σ), forSimpleRun.fileLoop c body (a ++ b) st =
      match forSimpleRun.fileLoop c body a st with
      | .ok (st', true) => .ok (st', true)
      | .ok (st', false) => forSimpleRun.fileLoop c body b st'
      | .ub => .ub
      | .hang => .hang := by
  intro a
  induction a with
  | nil => intro b st; rfl
  | cons x a ih =>
    intro b st
    rw [List.cons_append, forSimpleRun.fileLoop, forSimpleRun.fileLoop]
    cases body (setLocalVar st.1 c (some x), st.2) with
    | ok y =>
      obtain ⟨st', f⟩ := y
      cases f with
      | true => rfl
      | false => exact ih b st'
    | ub => rfl
    | hang => rfl

theorem chunkExpr_spec {t e : List Char} (h : ChunkBare t e) : chunkExpr t = e := by
  cases h with
  | both => simp [chunkExpr]
  | @opened m hm => simp [chunkExpr, hm]
  | bare ht =>
    unfold chunkExpr
    split
    · simp at ht
    · rfl

theorem forSimpleRun_chunks {σ : Type} (c : Char) (files : List Char → List (List Char))
    (body : LocalBlock × σ → Res ((LocalBlock × σ) × Bool)) {s : List Char} {cs : List (List Char)} (h : Chunks Blank s cs) :
    ∀ {vs : List (List Char)}, SetValues files cs vs → ∀ (fuel : Nat), cs.length < fuel → ∀ (st : LocalBlock × σ),
      forSimpleRun c files body fuel (some s) st = forSimpleRun.fileLoop c body vs st := by
  induction h with
  | nil hw =>
    intro vs hv fuel hf st
    cases hv
    obtain ⟨fuel, rfl⟩ : ∃ k, fuel = k + 1 := ⟨fuel - 1, by simp at hf; omega⟩
    rw [forSimpleRun, nextChunk_end hw]
    rfl
  | @cons w raw rest cs hw hr he hrest ih =>
    intro vs hv fuel hf st
    cases hv with
    | @cons _ _ v vs hx hv =>
    obtain ⟨fuel, rfl⟩ : ∃ k, fuel = k + 1 := ⟨fuel - 1, by simp at hf; omega⟩
    rw [forSimpleRun, nextChunk_cons hw hr he]
    simp only
    have hnext : ∀ st', forSimpleRun c files body fuel (if rest = [] then none else some rest) st' =
        forSimpleRun.fileLoop c body vs st' := by
      intro st'
      by_cases hre : rest = []
      · subst hre
        have := chunks_empty hrest
        subst this
        cases hv
        obtain ⟨fuel, rfl⟩ : ∃ k, fuel = k + 1 := ⟨fuel - 1, by simp at hf; omega⟩
        rw [if_pos rfl, forSimpleRun]
        rfl
      · rw [if_neg hre]
        exact ih hv fuel (by simp at hf; omega) st'
    rw [fileLoop_append]
    simp only [hnext]
    cases hx with
    | plain h1 h2 =>
      rw [if_neg]
      · simp only [forSimpleRun.fileLoop]
        cases body (setLocalVar st.1 c (some raw), st.2) with
        | ok y =>
          obtain ⟨st', f⟩ := y
          cases f <;> rfl
        | ub => rfl
        | hang => rfl
      · rw [List.any_eq_true]
        rintro ⟨d, hd, hdd⟩
        simp only [Bool.or_eq_true, beq_iff_eq] at hdd
        rcases hdd with rfl | rfl
        · exact h1 hd
        · exact h2 hd
    | wild h1 h2 =>
      rw [if_pos]
      · rw [chunkExpr_spec h2]; rfl
      · rw [List.any_eq_true]
        rcases h1 with h1 | h1
        · exact ⟨_, h1, by decide⟩
        · exact ⟨_, h1, by decide⟩

theorem fileLoop_values {σ : Type} (c : Char) (body : LocalBlock × σ → Res ((LocalBlock × σ) × Bool)) :
    ∀ (vs : List (List Char)) (st : LocalBlock × σ),
      (forSimpleRun.fileLoop c body vs st >>= fun r => pure r.1) =
        forValues (fun v st => body (setLocalVar st.1 c (some v), st.2)) vs st := by
  intro vs
  induction vs with
  | nil => intro st; rfl
  | cons v vs ih =>
    intro st
    rw [forSimpleRun.fileLoop, forValues]
    cases body (setLocalVar st.1 c (some v), st.2) with
    | ok y =>
      obtain ⟨st', f⟩ := y
      cases f with
      | true => rfl
      | false => exact ih st'
    | ub => rfl
    | hang => rfl

/-- The commands run once for each chunk of the set, in order, quotes protecting the delimiters and being kept; a chunk with wildcards
stands for the files it matches.  A command that leaves the loop ends it. -/
theorem C71_chunks_partial {σ : Type} (c : Char) (files : List Char → List (List Char))
    (body : LocalBlock × σ → Res ((LocalBlock × σ) × Bool)) (set : List Char) (cs vs : List (List Char))
    (h : Chunks Blank set cs) (hv : SetValues files cs vs) (fuel : Nat) (hf : cs.length < fuel) (st : LocalBlock × σ) :
    forSimpleCmd c files body fuel set st =
      forValues (fun v st => body (setLocalVar st.1 c (some v), st.2)) vs st >>=
        fun st' => pure (setLocalVar st'.1 c none, st'.2) := by
  unfold forSimpleCmd
  rw [← fileLoop_values, forSimpleRun_chunks c files body h hv fuel hf]
  cases forSimpleRun.fileLoop c body vs st <;> rfl

/-- The delimiters of the manual without the colon. -/
theorem nextChunk_colon (r : List Char) : nextChunk (some (':' :: r)) = some ([], some (':' :: r)) := by
  have hsk : skipBlanks (':' :: r) = ':' :: r := skipBlanks_stop (by decide)
  have he : paramEnd simpleDelims (':' :: r) 0 = some 0 := by
    rw [paramEnd.eq_1]
    have h1 : searchFrom simpleDelims (':' :: r) 0 = some 0 := by
      have := searchTok_word (p := simpleDelims) (a := []) (c := ':') r (by simp) (by simp) (by decide)
      unfold searchFrom
      simpa using this
    split
    · next h => rw [h1] at h; simp at h
    · next i h => rw [h1] at h; simp at h; subst h; simp
  unfold nextChunk
  simp only
  rw [hsk, if_neg (by simp), he]
  rfl

theorem forSimpleRun_colon {σ : Type} (c : Char) (files : List Char → List (List Char)) (body : LocalBlock × σ → LocalBlock × σ)
    (r : List Char) : ∀ (fuel : Nat) (st : LocalBlock × σ),
    forSimpleRun c files (fun st => .ok (body st, false)) fuel (some (':' :: r)) st = .hang := by
  intro fuel
  induction fuel with
  | zero => intro st; rfl
  | succ fuel ih =>
    intro st
    rw [forSimpleRun, nextChunk_colon]
    simp only [List.any_nil, Bool.false_eq_true, if_false]
    exact ih _

/-- The claim fails for sets with a colon outside quotes: the loop never ends, its variable being empty. -/
theorem C71_colon {σ : Type} (c : Char) (files : List Char → List (List Char)) (body : LocalBlock × σ → LocalBlock × σ)
    (w a r : List Char) (hw : ∀ d ∈ w, Blank d) (ha : ∀ d ∈ a, ¬ Blank d ∧ d ∉ ['"', '^', ':', '*', '?']) (fuel : Nat)
    (st : LocalBlock × σ) :
    forSimpleCmd c files (fun st => .ok (body st, false)) fuel (w ++ (a ++ ':' :: r)) st = .hang := by
  suffices h : forSimpleRun c files (fun st => .ok (body st, false)) fuel (some (w ++ (a ++ ':' :: r))) st = .hang by
    unfold forSimpleCmd
    rw [h]
    rfl
  cases fuel with
  | zero => rfl
  | succ fuel =>
    have hno : ∀ d ∈ a, simpleDelims d = false := by
      intro d hd
      obtain ⟨h1, h2⟩ := ha d hd
      rw [← Bool.not_eq_true]
      unfold simpleDelims
      simp only [List.contains_eq_mem, List.mem_cons, List.not_mem_nil, or_false, decide_eq_true_eq]
      simp only [List.mem_cons, List.not_mem_nil, or_false, not_or] at h2
      rintro (h | h | h | h | h | h | h)
      · exact h1 (.inl h)
      · exact h1 (.inr (.inr (.inl h)))
      · exact h2.2.2.1 h
      · exact h1 (.inr (.inr (.inr (.inl h))))
      · exact h1 (.inr (.inr (.inr (.inr h))))
      · exact h1 (.inr (.inl h))
      · exact h2.1 h
    have hn : nextChunk (some (w ++ (a ++ ':' :: r))) = some (a, some (':' :: r)) := by
      have hsk : skipBlanks (w ++ (a ++ ':' :: r)) = a ++ ':' :: r := by
        rw [skipBlanks_append hw]
        cases a with
        | nil => exact skipBlanks_stop (by decide)
        | cons d a => exact skipBlanks_stop (ha d (by simp)).1
      have he : paramEnd simpleDelims (a ++ ':' :: r) 0 = some a.length := by
        rw [paramEnd.eq_1]
        have h1 : searchFrom simpleDelims (a ++ ':' :: r) 0 = some a.length := by
          have := searchTok_word (p := simpleDelims) (a := a) (c := ':') r hno
            (fun h => (ha _ h).2 (by simp)) (by decide)
          unfold searchFrom
          simpa using this
        split
        · next h => rw [h1] at h; simp at h
        · next i h => rw [h1] at h; simp at h; subst h; simp
      unfold nextChunk
      simp only
      rw [hsk, if_neg (by simp), he]
      simp
    rw [forSimpleRun, hn]
    simp only
    rw [if_neg]
    · exact forSimpleRun_colon c files body r fuel _
    · rw [List.any_eq_true]
      rintro ⟨d, hd, hdd⟩
      have := (ha d hd).2
      simp only [Bool.or_eq_true, beq_iff_eq] at hdd
      rcases hdd with rfl | rfl <;> simp at this

theorem paramEnd_chunk {raw rest : List Char} (h : paramEnd simpleDelims (raw ++ rest) 0 = (if rest = [] then none else some raw.length)) :
    ParamEnd ChunkGap (raw ++ rest) raw rest := by
  refine ⟨rfl, ?_⟩
  rw [chunkGap_simple, ← h]
  have hf := paramEnd_first (p := simpleDelims) (by decide) (by decide) (raw ++ rest) 0 (.inl rfl) (by simp [quotesBefore])
  unfold FirstFrom at hf
  simpa using hf

/-- Simple quotes do not protect delimiters, although the manual says so: `'x y'` is two chunks. -/
theorem C71_single_quotes {σ : Type} (c : Char) (files : List Char → List (List Char))
    (body : LocalBlock × σ → Res ((LocalBlock × σ) × Bool)) (st : LocalBlock × σ) :
    forSimpleCmd c files body 9 ['\'', 'x', ' ', 'y', '\''] st =
      forValues (fun v st => body (setLocalVar st.1 c (some v), st.2)) [['\'', 'x'], ['y', '\'']] st >>=
        fun st' => pure (setLocalVar st'.1 c none, st'.2) := by
  have h : Chunks Blank (['\'', 'x', ' ', 'y', '\''] : List Char) [['\'', 'x'], ['y', '\'']] :=
    .cons (w := []) (raw := ['\'', 'x']) (rest := [' ', 'y', '\'']) (by simp) ⟨_, _, rfl, by decide⟩ (paramEnd_chunk (by decide +kernel))
      (.cons (w := [' ']) (raw := ['y', '\'']) (rest := []) (by decide) ⟨_, _, rfl, by decide⟩ (paramEnd_chunk (by decide +kernel))
        (.nil (by simp)))
  exact C71_chunks_partial c files body _ _ _ h
    (.cons (.plain (by decide) (by decide)) (.cons (.plain (by decide) (by decide)) .nil)) 9 (by decide) st

/-- Quotes protect line ends, although the manual says they do not. -/
theorem C71_newline {σ : Type} (c : Char) (files : List Char → List (List Char))
    (body : LocalBlock × σ → Res ((LocalBlock × σ) × Bool)) (st : LocalBlock × σ) :
    forSimpleCmd c files body 9 ['"', 'x', '\n', 'y', '"'] st =
      forValues (fun v st => body (setLocalVar st.1 c (some v), st.2)) [['"', 'x', '\n', 'y', '"']] st >>=
        fun st' => pure (setLocalVar st'.1 c none, st'.2) := by
  have h : Chunks Blank (['"', 'x', '\n', 'y', '"'] : List Char) [['"', 'x', '\n', 'y', '"']] :=
    .cons (w := []) (raw := ['"', 'x', '\n', 'y', '"']) (rest := []) (by simp) ⟨_, _, rfl, by decide⟩ (paramEnd_chunk (by decide +kernel))
      (.nil (by simp))
  exact C71_chunks_partial c files body _ _ _ h (.cons (.plain (by decide) (by decide)) .nil) 9 (by decide) st

/-- The example of the manual: `some stuff "some stuff"`, and a wildcard in quotes. -/
example : Chunks Blank "so st \"so st\",\"*\"".toList ["so".toList, "st".toList, "\"so st\"".toList, "\"*\"".toList] ∧
    SetValues (fun e => if e = ['*'] then [['f'], ['g']] else []) ["so".toList, "st".toList, "\"so st\"".toList, "\"*\"".toList]
      (["so".toList] ++ (["st".toList] ++ (["\"so st\"".toList] ++ ([['f'], ['g']] ++ [])))) := by
  constructor
  · have b : ∀ c ∈ ([' '] : List Char), Blank c := by decide
    refine .cons (w := []) (raw := ['s', 'o']) (rest := " st \"so st\",\"*\"".toList) (by simp) ⟨_, _, rfl, by decide⟩
      (paramEnd_chunk (by decide +kernel)) ?_
    refine .cons (w := [' ']) (raw := ['s', 't']) (rest := " \"so st\",\"*\"".toList) b ⟨_, _, rfl, by decide⟩ (paramEnd_chunk (by decide +kernel)) ?_
    refine .cons (w := [' ']) (raw := "\"so st\"".toList) (rest := ",\"*\"".toList) b ⟨_, _, rfl, by decide⟩ (paramEnd_chunk (by decide +kernel)) ?_
    exact .cons (w := [',']) (raw := "\"*\"".toList) (rest := []) (by decide) ⟨_, _, rfl, by decide⟩ (paramEnd_chunk (by decide +kernel))
      (.nil (by simp))
  · refine .cons (.plain (by decide) (by decide)) (.cons (.plain (by decide) (by decide)) (.cons (.plain (by decide) (by decide))
      (.cons ?_ .nil)))
    exact .wild (e := ['*']) (.inl (by decide)) (ChunkBare.both (m := ['*']))

end PBat
