import Verif.Lemmas.Env
/-
C08: the environment behaves as a case-insensitive map over any history.
-/
namespace PBat
open Spec

/-- For every conforming `qsort`/`bsearch`, every inherited environment without two names equal up to case
and every history: no access outside the table, and each read answers what the specification map holds.
`runMapExact` is the exact behaviour: reads and removals do not trim the name. -/
theorem C08_history_exact (L : LibC) (pos : Bool) (env : List CPtr) (ops : List EnvOp)
    (heq : ∀ s ∈ env, '=' ∈ s.txt) (hside : ∀ s ∈ env, SameSide pos s.addr)
    (huniq : (env.map fun s => fold (initName s.txt)).Nodup)
    (hops : ∀ o ∈ ops, OpSide pos o) :
    ∃ e e', initEnv L env = some e ∧
      runEnv L e ops = some (e', runMapExact (initMap (env.map CPtr.txt)) ops) := by
  obtain ⟨e, he, hR⟩ := initEnv_spec (L := L) heq hside huniq
  obtain ⟨e', h⟩ := runEnv_spec (L := L) ops hR hops
  exact ⟨e, e', he, h⟩

/-- The claim itself (names identified up to case and trailing blanks in every operation), for histories
that read and remove names without trailing blanks.  Missing: trailing blanks in reads and removals
(`C08_read_not_trimmed`, `C08_remove_not_trimmed`), pointers on both sides (`C08_mixed_addresses`),
inherited names equal up to case (`C08_inherited_duplicates`). -/
theorem C08_history_partial (L : LibC) (pos : Bool) (env : List CPtr) (ops : List EnvOp)
    (heq : ∀ s ∈ env, '=' ∈ s.txt) (hside : ∀ s ∈ env, SameSide pos s.addr)
    (huniq : (env.map fun s => fold (initName s.txt)).Nodup)
    (hops : ∀ o ∈ ops, OpSide pos o) (htrim : ∀ o ∈ ops, OpTrimmed o) :
    ∃ e e', initEnv L env = some e ∧
      runEnv L e ops = some (e', runMap (initMap (env.map CPtr.txt)) ops) := by
  obtain ⟨e, e', h1, h2⟩ := C08_history_exact L pos env ops heq hside huniq hops
  rw [runMapExact_trimmed ops _ htrim] at h2
  exact ⟨e, e', h1, h2⟩

/-- The hypotheses hold for a real history. -/
example : ∃ e e', initEnv stdLib [⟨5, "Path=/bin".toList⟩, ⟨9, "HOME=/root".toList⟩] = some e ∧
    runEnv stdLib e [.set ⟨3, "x ".toList⟩ "1".toList 7 false, .get ⟨2, "X".toList⟩, .unset ⟨4, "home".toList⟩,
      .get ⟨1, "HOME".toList⟩, .get ⟨1, "PATH".toList⟩] =
      some (e', [some "1".toList, none, some "/bin".toList]) := by
  have := C08_history_partial stdLib true [⟨5, "Path=/bin".toList⟩, ⟨9, "HOME=/root".toList⟩]
    [.set ⟨3, "x ".toList⟩ "1".toList 7 false, .get ⟨2, "X".toList⟩, .unset ⟨4, "home".toList⟩,
      .get ⟨1, "HOME".toList⟩, .get ⟨1, "PATH".toList⟩] (by decide) (by decide) (by decide)
      (by decide) (by decide)
  exact this

/-- A value read is always the value of a variable that is defined: whatever the state of the table, even when entries of removed
variables were moved by the comparisons with addresses. -/
theorem C08_read_defined (L : LibC) (e : EnvBuf) (n : CPtr) (t : List Char) (h : getEnv L e n = some t) :
    ∃ v ∈ e.vars, v.name ≠ none ∧ v.content = t := by
  unfold getEnv at h
  split at h
  · cases h
  · rename_i i _
    cases hv : e.vars[i]? with
    | none => rw [hv] at h; cases h
    | some v =>
      rw [hv] at h
      obtain ⟨m, hm, rfl⟩ := Option.map_eq_some_iff.1 h
      exact ⟨v, List.mem_of_getElem? hv, by rw [hm]; simp, rfl⟩

/-- Violation: a value set under a name with trailing blanks cannot be read under that name. -/
theorem C08_read_not_trimmed : ∃ ops e',
    runEnv stdLib ⟨128, []⟩ ops = some (e', [none]) ∧ runMap (fun _ => none) ops = [some "1".toList] ∧
    (∀ o ∈ ops, OpSide true o) :=
  ⟨[.set ⟨1, "a ".toList⟩ "1".toList 2 false, .get ⟨1, "a ".toList⟩], _, rfl, rfl, by decide⟩

/-- Violation: setting a name with trailing blanks to the empty text does not undefine it. -/
theorem C08_remove_not_trimmed : ∃ ops e',
    runEnv stdLib ⟨128, []⟩ ops = some (e', [some "1".toList]) ∧ runMap (fun _ => none) ops = [none] ∧
    (∀ o ∈ ops, OpSide true o) :=
  ⟨[.set ⟨1, "a ".toList⟩ "1".toList 2 false, .set ⟨1, "a ".toList⟩ [] 2 false, .get ⟨1, "a".toList⟩], _,
    rfl, rfl, by decide⟩

/-- Violation: the comparison of a dead slot depends on the address of the key, so after two removals a
defined variable is not found when the name is looked up from the other half of the address space. -/
theorem C08_mixed_addresses : ∃ ops e',
    runEnv stdLib ⟨128, []⟩ ops = some (e', [none]) ∧ runMap (fun _ => none) ops = [some "3".toList] ∧
    (∀ o ∈ ops, OpTrimmed o) := by
  refine ⟨[.set ⟨1, "a".toList⟩ "1".toList 2 false, .set ⟨1, "b".toList⟩ "2".toList 3 false,
    .set ⟨1, "c".toList⟩ "3".toList 4 false, .unset ⟨1, "a".toList⟩, .unset ⟨1, "b".toList⟩,
    .get ⟨-1, "c".toList⟩], _, rfl, rfl, ?_⟩
  decide

/-- Violation: two inherited names equal up to case are both kept, so a removal reveals the other one. -/
theorem C08_inherited_duplicates : ∃ (env : List CPtr) (ops : List EnvOp) (e e' : EnvBuf),
    (∀ s ∈ env, '=' ∈ s.txt) ∧ initEnv stdLib env = some e ∧
    runEnv stdLib e ops = some (e', [some "l".toList]) ∧ runMap (initMap (env.map CPtr.txt)) ops = [none] :=
  ⟨[⟨1, "proxy=l".toList⟩, ⟨2, "PROXY=u".toList⟩], [.unset ⟨3, "proxy".toList⟩, .get ⟨3, "proxy".toList⟩],
    _, _, by decide, rfl, rfl, rfl⟩

end PBat
