import Verif.Model.FilePath
import Verif.Spec.FilePath
/-
C37: the search of programs returns the first existing candidate in the documented order.
-/
namespace PBat
open Spec

theorem firstExisting_append {ex : List Char → Bool} {a b : List (List Char)} {r s : Option (List Char)} (h1 : FirstExisting ex a r)
    (h2 : FirstExisting ex b s) : FirstExisting ex (a ++ b) (r.or s) := by
  cases r with
  | some r =>
    obtain ⟨pre, post, rfl, h3, h4⟩ := h1
    exact ⟨pre, post ++ b, by simp, h3, h4⟩
  | none =>
    cases s with
    | none =>
      intro c hc
      rcases List.mem_append.1 hc with h | h
      · exact h1 c h
      · exact h2 c h
    | some s =>
      obtain ⟨pre, post, rfl, h3, h4⟩ := h2
      refine ⟨a ++ pre, post, by simp, h3, ?_⟩
      intro c hc
      rcases List.mem_append.1 hc with h | h
      · exact h1 c h
      · exact h4 c h

theorem strpbrk_fst_not (p : Char → Bool) : ∀ s, ∀ c ∈ (strpbrk p s).1, p c = false
  | [] => by simp [strpbrk]
  | c :: s => by
    rw [strpbrk]
    split
    · simp
    · next h =>
      intro d hd
      rcases List.mem_cons.1 hd with rfl | hd
      · simpa using h
      · exact strpbrk_fst_not p s d hd

theorem strpbrk_snd_head (p : Char → Bool) : ∀ s, ∀ c r, (strpbrk p s).2 = c :: r → p c = true
  | [], c, r, h => by simp [strpbrk] at h
  | d :: s, c, r, h => by
    rw [strpbrk] at h
    split at h
    · next hp => cases h; exact hp
    · exact strpbrk_snd_head p s c r h

/-- What one part is. -/
theorem pathNextPart_cases (d : Char) (s : List Char) :
    (s = [] ∧ pathNextPart d s = none) ∨
    (s ≠ [] ∧ d ∉ s ∧ pathNextPart d s = some (s, [])) ∨
    (∃ part rest, d ∉ part ∧ s = part ++ d :: rest ∧ pathNextPart d s = some (part, rest)) := by
  cases s with
  | nil => exact Or.inl ⟨rfl, rfl⟩
  | cons c s =>
    right
    have h1 := strpbrk_fst_not (· == d) (c :: s)
    have h2 := strpbrk_append (· == d) (c :: s)
    have h3 := strpbrk_snd_head (· == d) (c :: s)
    unfold pathNextPart
    rcases hq : strpbrk (· == d) (c :: s) with ⟨part, rest⟩
    rw [hq] at h1 h2 h3
    simp only at h1 h2 h3
    have hn : d ∉ part := fun hm => by simpa using h1 d hm
    cases rest with
    | nil =>
      left
      rw [List.append_nil] at h2
      subst h2
      exact ⟨by simp, hn, by simp only [hq]⟩
    | cons x rest =>
      right
      have := h3 x rest rfl
      rw [beq_iff_eq] at this
      subst this
      exact ⟨part, rest, hn, h2.symm, by simp only [hq]⟩

/-- The parts in turn are the entries. -/
theorem entries_cons {d : Char} {part rest : List Char} {es : List (List Char)} (h : Entries d (part ++ d :: rest) es) (hd : d ∉ part) :
    ∃ es', es = part :: es' ∧ Entries d rest es' := by
  obtain ⟨h1, h2⟩ := h
  have hR : ∃ R, (if part ++ d :: rest = [] ∨ (part ++ d :: rest).getLast? = some d then part ++ d :: rest else part ++ d :: rest ++ [d]) =
      part ++ d :: R ∧ R = if rest = [] ∨ rest.getLast? = some d then rest else rest ++ [d] := by
    refine ⟨_, ?_, rfl⟩
    rw [List.getLast?_append]
    cases rest with
    | nil => simp
    | cons x rest =>
      rw [List.getLast?_cons_cons]
      cases hl : (x :: rest).getLast? with
      | none => simp at hl
      | some y =>
        by_cases hy : y = d
        · simp [hy]
        · simp [hy]
  obtain ⟨R, hR1, hR2⟩ := hR
  rw [hR1] at h2
  cases es with
  | nil => simp at h2
  | cons e es' =>
    rw [List.flatMap_cons, List.append_assoc, List.singleton_append] at h2
    have hed := h1 e List.mem_cons_self
    have : e = part ∧ es'.flatMap (· ++ [d]) = R := by
      clear hR1 hR2 h1
      induction e generalizing part with
      | nil =>
        cases part with
        | nil => simpa using h2
        | cons x part =>
          simp only [List.nil_append, List.cons_append, List.cons.injEq] at h2
          exact absurd (by simp [h2.1]) hd
      | cons y e ih =>
        cases part with
        | nil =>
          simp only [List.nil_append, List.cons_append, List.cons.injEq] at h2
          exact absurd (by simp [h2.1]) hed
        | cons x part =>
          simp only [List.cons_append, List.cons.injEq] at h2
          obtain ⟨rfl, h2⟩ := h2
          obtain ⟨rfl, h⟩ := ih (part := part) (fun h => hd (List.mem_cons_of_mem _ h)) h2 (fun h => hed (List.mem_cons_of_mem _ h))
          exact ⟨rfl, h⟩
    obtain ⟨rfl, h3⟩ := this
    exact ⟨es', rfl, fun e' he' => h1 e' (List.mem_cons_of_mem _ he'), by rw [h3, hR2]⟩

theorem entries_nil {d : Char} {es : List (List Char)} (h : Entries d [] es) : es = [] := by
  cases es with
  | nil => rfl
  | cons e es => have := h.2; simp at this

theorem entries_single {d : Char} {s : List Char} {es : List (List Char)} (h : Entries d s es) (hs : s ≠ []) (hd : d ∉ s) : es = [s] := by
  have hl : ¬ (s = [] ∨ s.getLast? = some d) := by
    rintro (h | h)
    · exact hs h
    · exact hd (List.mem_of_getLast? h)
  have : Entries d (s ++ d :: []) es := ⟨h.1, by rw [h.2, if_neg hl, if_pos (Or.inr (by simp))]⟩
  obtain ⟨es', rfl, h2⟩ := entries_cons this hd
  rw [entries_nil h2]

/-- The entries of a list exist and are unique: the specification determines the candidates. -/
theorem C37_entries (d : Char) (s : List Char) : ∃ es, Entries d s es ∧ ∀ es', Entries d s es' → es' = es := by
  induction hn : s.length using Nat.strongRecOn generalizing s with
  | ind n ih =>
    subst hn
    rcases pathNextPart_cases d s with ⟨rfl, -⟩ | ⟨h1, h2, -⟩ | ⟨part, rest, h1, rfl, -⟩
    · exact ⟨[], ⟨by simp, rfl⟩, fun es' h => entries_nil h⟩
    · refine ⟨[s], ⟨by simpa using h2, ?_⟩, fun es' h => entries_single h h1 h2⟩
      rw [if_neg (fun h => h.elim h1 (fun h => h2 (List.mem_of_getLast? h)))]
      simp
    · obtain ⟨es, he, hu⟩ := ih rest.length (by simp; omega) rest rfl
      refine ⟨part :: es, ⟨?_, ?_⟩, ?_⟩
      · intro e hm
        rcases List.mem_cons.1 hm with rfl | hm
        · exact h1
        · exact he.1 e hm
      · rw [List.flatMap_cons, he.2]
        cases rest with
        | nil => simp
        | cons x rest =>
          simp only [List.getLast?_append, List.getLast?_cons_cons, reduceCtorEq, false_or]
          cases hl : (x :: rest).getLast? with
          | none => simp at hl
          | some y => by_cases hy : y = d <;> simp [hy]
      · intro es' h
        obtain ⟨es'', rfl, h'⟩ := entries_cons h h1
        rw [hu es'' h']

theorem tryExts_first (d : Char) (ex : List Char → Bool) (tmp : List Char) (s : List Char) (es : List (List Char)) (h : Entries d s es) :
    FirstExisting ex (candidatesOf es tmp) (tryExts d ex tmp s) := by
  induction hn : s.length using Nat.strongRecOn generalizing s es with
  | ind n ih =>
    subst hn
    have hbase : FirstExisting ex [tmp] (if ex tmp then some tmp else none) := by
      cases hx : ex tmp with
      | true => exact ⟨[], [], rfl, hx, by simp⟩
      | false => intro c hc; rw [List.mem_singleton.1 hc]; exact hx
    have hone : ∀ p, FirstExisting ex [tmp ++ p] (if ex (tmp ++ p) then some (tmp ++ p) else none) := by
      intro p
      cases hx : ex (tmp ++ p) with
      | true => exact ⟨[], [], rfl, hx, by simp⟩
      | false => intro c hc; rw [List.mem_singleton.1 hc]; exact hx
    have hstep : ∀ p rest es', pathNextPart d s = some (p, rest) → es = p :: es' → Entries d rest es' →
        FirstExisting ex (candidatesOf es tmp) (tryExts d ex tmp s) := by
      rintro p rest es' hp rfl he
      have := firstExisting_append (hone p) (ih rest.length (pathNextPart_length hp) rest es' he rfl)
      have heq : tryExts d ex tmp s = (if ex (tmp ++ p) then some (tmp ++ p) else none).or (tryExts d ex tmp rest) := by
        rw [tryExts.eq_1]
        split
        · next p' rest' hq =>
          rw [hp] at hq
          cases hq
          cases ex (tmp ++ p) <;> rfl
        · next hq => rw [hp] at hq; cases hq
      rw [heq]
      exact this
    rcases pathNextPart_cases d s with ⟨rfl, h1⟩ | ⟨h1, h2, h3⟩ | ⟨part, rest, h1, rfl, h3⟩
    · rw [entries_nil h, tryExts.eq_1]
      split
      · next hq => rw [h1] at hq; cases hq
      · exact hbase
    · exact hstep s [] [] h3 (entries_single h h1 h2) ⟨by simp, rfl⟩
    · obtain ⟨es', h4, h5⟩ := entries_cons h h1
      exact hstep part rest es' h3 h4 h5

theorem makePath_eq (a b : List Char) : makePath a b = inDirectory a b := by
  unfold makePath inDirectory
  cases a with
  | nil => rfl
  | cons x a =>
    cases hl : (x :: a).getLast? with
    | none => simp at hl
    | some y => by_cases hy : y = '/' <;> simp [hy]

theorem tryPath_first (d : Char) (ex : List Char → Bool) (exts name : List Char) (es : List (List Char)) (hes : Entries d exts es)
    (s : List Char) (dirs : List (List Char)) (h : Entries d s dirs) :
    FirstExisting ex (dirs.flatMap (fun dir => candidatesOf es (inDirectory dir name))) (tryPath d ex exts name s) := by
  induction hn : s.length using Nat.strongRecOn generalizing s dirs with
  | ind n ih =>
    subst hn
    have hstep : ∀ p rest dirs', pathNextPart d s = some (p, rest) → dirs = p :: dirs' → Entries d rest dirs' →
        FirstExisting ex (dirs.flatMap (fun dir => candidatesOf es (inDirectory dir name))) (tryPath d ex exts name s) := by
      rintro p rest dirs' hp rfl he
      have := firstExisting_append (tryExts_first d ex (inDirectory p name) exts es hes) (ih rest.length (pathNextPart_length hp) rest dirs' he rfl)
      have heq : tryPath d ex exts name s = (tryExts d ex (inDirectory p name) exts).or (tryPath d ex exts name rest) := by
        rw [tryPath.eq_1]
        split
        · next hq => rw [hp] at hq; cases hq
        · next p' rest' hq =>
          rw [hp] at hq
          cases hq
          rw [makePath_eq]
          cases tryExts d ex (inDirectory p name) exts <;> rfl
      rw [heq, List.flatMap_cons]
      exact this
    rcases pathNextPart_cases d s with ⟨rfl, h1⟩ | ⟨h1, h2, h3⟩ | ⟨part, rest, h1, rfl, h3⟩
    · rw [entries_nil h, tryPath.eq_1]
      split
      · simp [FirstExisting]
      · next hq => rw [h1] at hq; cases hq
    · exact hstep s [] [] h3 (entries_single h h1 h2) ⟨by simp, rfl⟩
    · obtain ⟨es', h4, h5⟩ := entries_cons h h1
      exact hstep part rest es' h3 h4 h5

/-- A plain name (no separator, not the name of a device): the current directory, then every entry of `PATH`; in each, every extension of
`PATHEXT` and then the bare name.  The first existing candidate is returned, and none exactly when there is none; for all values of the
variables and all file systems whose names fit in the buffer. -/
theorem C37_search (d : Char) (trans : List Char → List Char) (ex : List Char → Bool) (cur path pathext name : List Char) (cap : Nat)
    (dirs exts : List (List Char)) (hd : Entries d path dirs) (he : Entries d pathext exts) (hn : '/' ∉ name) (ht : trans name = name)
    (hcap : ∀ p, ex p = true → p.length < cap) :
    FirstExisting ex (candidatesOf exts (cur ++ ['/'] ++ name) ++ dirs.flatMap (fun dir => candidatesOf exts (inDirectory dir name)))
      (getFilePath d trans ex cur (some path) (some pathext) cap name) := by
  have h1 := tryExts_first d ex (cur ++ ['/'] ++ name) pathext exts he
  have h2 := tryPath_first d ex pathext name exts he path dirs hd
  have habs : absolute name = false := by
    cases h : absolute name with
    | false => rfl
    | true =>
      unfold absolute at h
      split at h
      · cases h
      · exact absurd (by simp) hn
      · cases h
  have hany : name.any (· == '/') = false := by
    rw [List.any_eq_false]
    intro c hc
    simp only [beq_iff_eq]
    intro h
    exact hn (h ▸ hc)
  have := firstExisting_append h1 h2
  have heq : getFilePath d trans ex cur (some path) (some pathext) cap name =
      ((tryExts d ex (cur ++ ['/'] ++ name) pathext).or (tryPath d ex pathext name path)).map (·.take (cap - 1)) := by
    unfold getFilePath makeFullPath
    rw [ht, habs, hany, show cur ++ ['/'] ++ name = cur ++ '/' :: name by simp]
    simp only [Option.getD_some, Bool.false_eq_true, if_false, Bool.or_self]
    cases tryExts d ex (cur ++ '/' :: name) pathext <;> rfl
  rw [heq]
  cases hr : (tryExts d ex (cur ++ ['/'] ++ name) pathext).or (tryPath d ex pathext name path) with
  | none => rw [hr] at this; exact this
  | some r =>
    rw [hr] at this
    have hx : ex r = true := by obtain ⟨_, _, _, h, _⟩ := this; exact h
    have := hcap r hx
    rw [Option.map_some, List.take_of_length_le (by omega)]
    assumption

/-- A name with a separator is searched at its place only, whatever `PATH` is. -/
theorem C37_with_separator (d : Char) (trans : List Char → List Char) (ex : List Char → Bool) (cur pathext name : List Char) (path : Option (List Char))
    (cap : Nat) (exts : List (List Char)) (he : Entries d pathext exts) (hn : '/' ∈ name) (ht : trans name = name)
    (hcap : ∀ p, ex p = true → p.length < cap) :
    FirstExisting ex (candidatesOf exts (if absolute name then name else cur ++ ['/'] ++ name))
      (getFilePath d trans ex cur path (some pathext) cap name) := by
  have h1 := tryExts_first d ex (if absolute name then name else cur ++ ['/'] ++ name) pathext exts he
  have hany : name.any (· == '/') = true := by
    rw [List.any_eq_true]
    exact ⟨'/', hn, by simp⟩
  have heq : getFilePath d trans ex cur path (some pathext) cap name =
      (tryExts d ex (if absolute name then name else cur ++ ['/'] ++ name) pathext).map (·.take (cap - 1)) := by
    unfold getFilePath makeFullPath
    rw [ht, hany, show cur ++ ['/'] ++ name = cur ++ '/' :: name by simp]
    simp only [Option.getD_some, Bool.or_true, if_true]
    cases tryExts d ex (if absolute name then name else cur ++ '/' :: name) pathext <;> cases path <;> rfl
  rw [heq]
  cases hr : tryExts d ex (if absolute name then name else cur ++ ['/'] ++ name) pathext with
  | none => rw [hr] at h1; exact h1
  | some r =>
    rw [hr] at h1
    have hx : ex r = true := by obtain ⟨_, _, _, h, _⟩ := h1; exact h
    have := hcap r hx
    rw [Option.map_some, List.take_of_length_le (by omega)]
    exact h1

/-- Unset variables are searched like empty ones. -/
theorem C37_unset (d : Char) (trans : List Char → List Char) (ex : List Char → Bool) (cur name : List Char) (path pathext : Option (List Char)) (cap : Nat) :
    getFilePath d trans ex cur path pathext cap name = getFilePath d trans ex cur (some (path.getD [])) (some (pathext.getD [])) cap name := by
  cases path with
  | some p => cases pathext <;> rfl
  | none =>
    unfold getFilePath
    simp only [Option.getD_some, Option.getD_none]
    have : tryPath d ex (pathext.getD []) name [] = none := by
      rw [tryPath.eq_1]
      split
      · rfl
      · next h => cases h
    rw [this]
    simp

/- Examples. -/
example : Entries ':' "/bin:/usr/bin:".toList ["/bin".toList, "/usr/bin".toList] := ⟨by decide, by decide⟩
example : Entries ':' ".bat:.cmd".toList [".bat".toList, ".cmd".toList] := ⟨by decide, by decide⟩
example : getFilePath ':' id (fun p => p = "/bin/x.cmd".toList || p = "/bin/x".toList) "/d".toList (some "/bin:/usr/bin".toList)
    (some ".bat:.cmd".toList) 4096 "x".toList = some "/bin/x.cmd".toList := by decide +kernel

end PBat
