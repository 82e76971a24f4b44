import Verif.Lemmas.EnvBlock
/-
C11: the environment block handed to child processes.
-/
namespace PBat
open Spec

/-- For every table of C strings the block is filled without leaving it, it has the reported size, and a
reader gets exactly the strings `NAME=VALUE` of the defined variables and consumes the whole block. -/
theorem C11_block (g : Nat → Char) (e : EnvBuf)
    (h : ∀ v ∈ e.vars, NUL ∉ v.content ∧ ∀ n, v.name = some n → NUL ∉ n.txt) :
    ∃ b, envBlock g e = some (b, b.length) ∧ readBlock [] b = some (strings e.vars, []) := by
  refine ⟨blockBytes e.vars ++ [NUL], by rw [envBlock_eq]; simp, ?_⟩
  unfold blockBytes
  refine readBlock_bytes _ ?_ []
  intro s hs
  obtain ⟨v, hv, hm⟩ := List.mem_filterMap.1 hs
  cases hn : v.name with
  | none => simp [hn] at hm
  | some n =>
    simp only [hn, Option.map_some, Option.some.injEq] at hm
    subst hm
    have := h v hv
    refine ⟨?_, by simp⟩
    simp only [List.mem_append, List.mem_cons, not_or]
    exact ⟨this.2 n hn, by decide, this.1⟩

example : ∃ b, envBlock (fun _ => 'z') ⟨128, [⟨some ⟨1, "A".toList⟩, "1 2".toList, false, []⟩,
      ⟨none, [], true, []⟩, ⟨some ⟨2, "b".toList⟩, [], false, []⟩]⟩ = some (b, b.length) ∧
    readBlock [] b = some (["A=1 2".toList, "b=".toList], []) :=
  C11_block (fun _ => 'z') ⟨128, [⟨some ⟨1, "A".toList⟩, "1 2".toList, false, []⟩,
      ⟨none, [], true, []⟩, ⟨some ⟨2, "b".toList⟩, [], false, []⟩]⟩ (by
    intro v hv
    simp at hv
    rcases hv with rfl | rfl | rfl <;> exact ⟨by decide, by intro n hn; cases hn <;> decide⟩)

/-- Each defined variable is listed exactly once: the table holds the map `M` of C08, the strings have
different names, and a string is listed iff `M` gives that value to that name. -/
theorem C11_once (pos : Bool) (e : EnvBuf) (M : Map) (hR : EnvRep pos e M)
    (hname : ∀ v ∈ e.vars, ∀ n, v.name = some n → '=' ∉ n.txt) :
    ((strings e.vars).map fun s => fold (initName s)).Nodup ∧
    ∀ k c, M k = some c ↔ ∃ s ∈ strings e.vars, ∃ n, s = n ++ '=' :: c ∧ fold n = k ∧ '=' ∉ n := by
  constructor
  · rw [List.nodup_iff_pairwise_ne, List.pairwise_map]
    unfold strings
    rw [List.pairwise_filterMap]
    refine hR.core.uniq.imp_of_mem ?_
    intro a b ha hb hd s hs t ht
    cases hna : a.name with
    | none => simp [hna] at hs
    | some x =>
      cases hnb : b.name with
      | none => simp [hnb] at ht
      | some y =>
        simp [hna] at hs; simp [hnb] at ht
        subst hs; subst ht
        unfold initName
        rw [takeWhile_ne (hname a ha x hna), takeWhile_ne (hname b hb y hnb)]
        exact hd x y hna hnb
  · intro k c
    rw [hR.core.map]
    constructor
    · rintro ⟨v, hv, n, hn, hf, hc⟩
      refine ⟨n.txt ++ '=' :: v.content, List.mem_filterMap.2 ⟨v, hv, by simp [hn]⟩, n.txt, by rw [hc], hf,
        hname v hv n hn⟩
    · rintro ⟨s, hs, n, rfl, hf, hn⟩
      obtain ⟨v, hv, hm⟩ := List.mem_filterMap.1 hs
      cases hnv : v.name with
      | none => simp [hnv] at hm
      | some m =>
        simp [hnv] at hm
        have h1 := takeWhile_ne (r := c) hn
        have h2 := dropWhile_ne (r := c) hn
        rw [← hm, takeWhile_ne (hname v hv m hnv)] at h1
        rw [← hm, dropWhile_ne (hname v hv m hnv)] at h2
        refine ⟨v, hv, m, hnv, by rw [h1]; exact hf, by simpa using h2⟩

/-- A child that reads the block starts with the same map, provided no value ends with a blank. -/
theorem C11_child (pos : Bool) (e : EnvBuf) (M : Map) (hR : EnvRep pos e M)
    (hname : ∀ v ∈ e.vars, ∀ n, v.name = some n → '=' ∉ n.txt)
    (hblank : ∀ v ∈ e.vars, ∀ n, v.name = some n → (v.content.reverse.dropWhile blank).reverse = v.content) :
    initMap (strings e.vars) = M := by
  have hone := (C11_once pos e M hR hname)
  have key : ∀ k c, initMap (strings e.vars) k = some c ↔ M k = some c := by
    intro k c
    rw [hone.2]
    unfold initMap
    constructor
    · intro h
      obtain ⟨s, hs, hv⟩ := Option.map_eq_some_iff.1 h
      have hmem := List.mem_of_find?_eq_some hs
      have hk := List.find?_some hs
      simp only [decide_eq_true_eq] at hk
      obtain ⟨v, hvm, hm⟩ := List.mem_filterMap.1 hmem
      cases hn : v.name with
      | none => simp [hn] at hm
      | some n =>
        simp [hn] at hm
        subst hm
        have hne := hname v hvm n hn
        unfold initName at hk
        rw [takeWhile_ne hne] at hk
        unfold initValue at hv
        rw [dropWhile_ne hne] at hv
        simp only [List.drop_succ_cons, List.drop_zero] at hv
        rw [hblank v hvm n hn] at hv
        subst hv
        exact ⟨_, hmem, n.txt, rfl, hk, hne⟩
    · rintro ⟨s, hs, n, rfl, hf, hne⟩
      have hfind : (strings e.vars).find? (fun s => fold (initName s) = k) = some (n ++ '=' :: c) := by
        have hnd := hone.1
        generalize strings e.vars = l at hs hnd
        have hin : fold (initName (n ++ '=' :: c)) = k := by
          unfold initName; rw [takeWhile_ne hne]; exact hf
        induction l with
        | nil => simp at hs
        | cons s l ih =>
          rw [List.map_cons, List.nodup_cons] at hnd
          rw [List.find?_cons]
          rcases List.mem_cons.1 hs with rfl | hs
          · simp [hin]
          · have : fold (initName s) ≠ k := by
              intro h
              exact hnd.1 (List.mem_map.2 ⟨_, hs, hin.trans h.symm⟩)
            simp only [this, decide_false]
            exact ih hs hnd.2
      rw [hfind]
      obtain ⟨v, hvm, hm⟩ := List.mem_filterMap.1 hs
      cases hn : v.name with
      | none => simp [hn] at hm
      | some m =>
        simp [hn] at hm
        have h2 := dropWhile_ne (r := c) hne
        rw [← hm, dropWhile_ne (hname v hvm m hn)] at h2
        have hc : v.content = c := by simpa using h2
        simp only [Option.map_some, initValue]
        rw [dropWhile_ne hne]
        simp only [List.drop_succ_cons, List.drop_zero]
        rw [← hc, hblank v hvm m hn]
  funext k
  cases h : M k with
  | some c => exact (key k c).2 h
  | none =>
    cases h' : initMap (strings e.vars) k with
    | none => rfl
    | some c => rw [(key k c).1 h'] at h; exact absurd h (by simp)

/-- The hypotheses of the two theorems above hold for a table reached by a real start of the program. -/
example : ∃ e, initEnv stdLib [⟨5, "Path=/bin".toList⟩, ⟨9, "HOME=/root".toList⟩] = some e ∧
    initMap (strings e.vars) = initMap ["Path=/bin".toList, "HOME=/root".toList] := by
  obtain ⟨e, he, hR⟩ := initEnv_spec (L := stdLib) (pos := true)
    (env := [⟨5, "Path=/bin".toList⟩, ⟨9, "HOME=/root".toList⟩]) (by decide) (by decide) (by decide)
  refine ⟨e, he, C11_child true e _ hR ?_ ?_⟩ <;> (cases he; decide)

end PBat
