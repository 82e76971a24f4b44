import Verif.Spec.Pbatize
import Verif.Props.C03
import Verif.Props.C04
import Verif.Lemmas.Def
/-
C90: pbatize.
-/
namespace PBat
open Spec

theorem switchAt_ok {sw : List Char} {k : Nat} (h : k ≤ sw.length) : switchAt sw k = .ok sw[k]? := by rw [switchAt, if_pos h]

theorem some_iff_lt {sw : List Char} {k : Nat} : sw[k]? ≠ none ↔ k < sw.length := by
  rw [ne_eq, List.getElem?_eq_none_iff]; omega

/-- The pairs with the switch `i` after the switch `j`, `j` from a position on. -/
def pairRow (n i j : Nat) : List PbPair := ((List.range' j (n - j)).filter (· ≠ i)).map fun j => ⟨i, some j⟩

/-- The pairs of switches, with a first switch `i` from a position on. -/
def pairRows (n i : Nat) : List PbPair := (List.range' i (n - i)).flatMap fun i => pairRow n i 0

theorem pairRow_step {n i j : Nat} (hj : j < n) (hne : j ≠ i) : pairRow n i j = ⟨i, some j⟩ :: pairRow n i (j + 1) := by
  unfold pairRow
  have : n - j = (n - (j + 1)) + 1 := by omega
  rw [this, List.range'_succ, List.filter_cons_of_pos (by simpa using hne)]
  rfl

theorem pairRow_skip {n i : Nat} : pairRow n i i = pairRow n i (i + 1) := by
  unfold pairRow
  by_cases h : i < n
  · have : n - i = (n - (i + 1)) + 1 := by omega
    rw [this, List.range'_succ, List.filter_cons_of_neg (by simp)]
  · have h1 : n - i = 0 := by omega
    have h2 : n - (i + 1) = 0 := by omega
    rw [h1, h2]
    rfl

theorem pairRow_end {n i j : Nat} (h : n ≤ j) : pairRow n i j = [] := by
  unfold pairRow
  rw [show n - j = 0 by omega]
  rfl

theorem pairRows_step {n i : Nat} (h : i < n) : pairRows n i = pairRow n i 0 ++ pairRows n (i + 1) := by
  unfold pairRows
  have : n - i = (n - (i + 1)) + 1 := by omega
  rw [this, List.range'_succ, List.flatMap_cons]

theorem pairRows_end {n i : Nat} (h : n ≤ i) : pairRows n i = [] := by
  unfold pairRows
  rw [show n - i = 0 by omega]
  rfl

/-- The loop over the pairs of switches. -/
theorem pairsFrom_switch (sw : List Char) (hn : 2 ≤ sw.length) : ∀ (k i j : Nat), k = pairRank sw.length ⟨i, some j⟩ → i < sw.length → j < sw.length →
    j ≠ i → pairsFrom sw ⟨i, some j⟩ = .ok (pairRow sw.length i j ++ pairRows sw.length (i + 1)) := by
  intro k
  induction k using Nat.strongRecOn with
  | _ k ih =>
    intro i j hk hi hj hne
    rw [pairsFrom.eq_1, pairRow_step hj hne]
    simp only [pairNext, pairNextSwitch]
    generalize hj' : (if j + 1 = i then j + 1 else j) = j'
    have hrow : pairRow sw.length i (j + 1) = pairRow sw.length i (j' + 1) := by
      subst hj'
      split
      · rename_i h
        rw [← h]
        exact pairRow_skip
      · rfl
    have hj'n : j' + 1 ≤ sw.length ∧ j ≤ j' ∧ j' + 1 ≠ i := by
      subst hj'
      split <;> omega
    rw [switchAt_ok hj'n.1, Res.ok_bind, hrow]
    by_cases hend : j' + 1 = sw.length
    · rw [if_pos (List.getElem?_eq_none_iff.2 (by omega)), switchAt_ok (by omega), pairRow_end (by omega)]
      simp only [Res.ok_bind]
      by_cases hi' : i + 1 = sw.length
      · rw [if_pos (List.getElem?_eq_none_iff.2 (by omega)), pairRows_end (by omega)]
        rfl
      · rw [if_neg (some_iff_lt.2 (by omega))]
        have hr : pairRank sw.length ⟨i + 1, some 0⟩ < pairRank sw.length ⟨i, some j⟩ := by
          simp only [pairRank]
          have : (sw.length - i) * (sw.length + 2) = (sw.length - (i + 1)) * (sw.length + 2) + (sw.length + 2) := by
            rw [← Nat.succ_mul]; congr 1; omega
          omega
        simp only [if_pos hr]
        rw [ih _ (by rw [hk]; exact hr) (i + 1) 0 rfl (by omega) (by omega) (by omega)]
        rw [pairRows_step (show i + 1 < sw.length by omega)]
        rfl
    · rw [if_neg (some_iff_lt.2 (by omega))]
      have hr : pairRank sw.length ⟨i, some (j' + 1)⟩ < pairRank sw.length ⟨i, some j⟩ := by
        simp only [pairRank]
        omega
      simp only [Res.ok_bind, if_pos hr]
      rw [ih _ (by rw [hk]; exact hr) i (j' + 1) rfl hi (by omega) hj'n.2.2]
      rfl

/-- The loop over the switches of the command. -/
theorem pairsFrom_command (sw : List Char) : ∀ (k i : Nat), k = sw.length - i → i < sw.length →
    pairsFrom sw ⟨i, none⟩ = .ok ((List.range' i (sw.length - i)).map (fun i => ⟨i, none⟩) ++ (if 2 ≤ sw.length then pairRows sw.length 0 else [])) := by
  intro k
  induction k with
  | zero => intro i hk hi; omega
  | succ k ih =>
    intro i hk hi
    have hs : sw.length - i = (sw.length - (i + 1)) + 1 := by omega
    rw [pairsFrom.eq_1, hs, List.range'_succ]
    simp only [pairNext, pairNextCommand]
    rw [switchAt_ok (by omega), Res.ok_bind]
    by_cases hend : i + 1 = sw.length
    · rw [if_pos (List.getElem?_eq_none_iff.2 (by omega)), show sw.length - (i + 1) = 0 by omega]
      by_cases h1 : i + 1 = 1
      · rw [if_pos h1, if_neg (by omega)]
        rfl
      · rw [if_neg h1, if_pos (by omega)]
        have hr : pairRank sw.length ⟨0, some 1⟩ < pairRank sw.length ⟨i, none⟩ := by
          simp only [pairRank, Nat.succ_mul, Nat.sub_zero]
          omega
        simp only [Res.ok_bind, if_pos hr]
        rw [pairsFrom_switch sw (by omega) _ 0 1 rfl (by omega) (by omega) (by omega), pairRows_step (show 0 < sw.length by omega)]
        rw [pairRow_skip]
        rfl
    · rw [if_neg (some_iff_lt.2 (by omega))]
      have hr : pairRank sw.length ⟨i + 1, none⟩ < pairRank sw.length ⟨i, none⟩ := by
        simp only [pairRank]
        omega
      simp only [Res.ok_bind, if_pos hr]
      rw [ih (i + 1) (by omega) (by omega)]
      rfl

/-- The pairs enumerated, for any number of switches: each switch with the command once, then each switch after each other one once. -/
theorem pairsOf_eq (sw : List Char) (h : sw ≠ []) : pairsOf sw =
    .ok ((List.range sw.length).map (fun i => ⟨i, none⟩) ++ if 2 ≤ sw.length then pairRows sw.length 0 else []) := by
  have hl : 0 < sw.length := List.length_pos_iff.2 h
  rw [pairsOf, pairsFrom_command sw sw.length 0 (by omega) hl, List.range_eq_range']
  rfl

theorem mem_pairRows {n : Nat} {p : PbPair} : p ∈ pairRows n 0 ↔ ∃ i j, i < n ∧ j < n ∧ i ≠ j ∧ p = ⟨i, some j⟩ := by
  simp only [pairRows, pairRow, List.mem_flatMap, List.mem_map, List.mem_filter, List.mem_range'_1, decide_eq_true_eq]
  constructor
  · rintro ⟨i, hi, j, ⟨hj, hne⟩, rfl⟩
    exact ⟨i, j, by omega, by omega, fun h => hne h.symm, rfl⟩
  · rintro ⟨i, j, hi, hj, hne, rfl⟩
    exact ⟨i, by omega, j, ⟨by omega, fun h => hne h.symm⟩, rfl⟩

theorem pairRows_nodup (n : Nat) : (pairRows n 0).Nodup := by
  unfold pairRows
  rw [List.nodup_iff_pairwise_ne, List.pairwise_flatMap]
  refine ⟨?_, ?_⟩
  · intro i _
    unfold pairRow
    rw [List.pairwise_map]
    refine ((List.nodup_range' (step := 1)).filter _).imp ?_
    intro a b hab he
    cases he
    exact hab rfl
  · refine (List.nodup_range' (step := 1)).imp ?_
    intro a b hab x hx y hy hxy
    unfold pairRow at hx hy
    obtain ⟨_, _, rfl⟩ := List.mem_map.1 hx
    obtain ⟨_, _, rfl⟩ := List.mem_map.1 hy
    cases hxy
    exact hab rfl

/-- Every text joined is looked for, and nothing else, each once, for every command with any number of switches. -/
theorem C90_pairs (c : PbCommand) (h : c.switches ≠ []) :
    ∃ ps, pairsOf c.switches = .ok ps ∧ ps.Nodup ∧ ∀ a b, (a, b) ∈ ps.map (pairTexts c) ↔ JoinedSwitches c a b := by
  refine ⟨_, pairsOf_eq _ h, ?_, ?_⟩
  · rw [List.nodup_append]
    refine ⟨?_, ?_, ?_⟩
    · rw [List.nodup_iff_pairwise_ne, List.pairwise_map]
      refine List.nodup_range.imp ?_
      intro a b hab he
      cases he
      exact hab rfl
    · split
      · exact pairRows_nodup _
      · exact List.nodup_nil
    · intro x hx y hy hxy
      obtain ⟨i, _, rfl⟩ := List.mem_map.1 hx
      split at hy
      · obtain ⟨_, _, _, _, _, rfl⟩ := mem_pairRows.1 hy
        cases hxy
      · cases hy
  · intro a b
    rw [List.mem_map]
    have get : ∀ {i : Nat}, i < c.switches.length → ∃ x, c.switches[i]? = some x := fun hi => ⟨_, List.getElem?_eq_getElem hi⟩
    constructor
    · rintro ⟨p, hp, he⟩
      rcases List.mem_append.1 hp with hp | hp
      · obtain ⟨i, hi, rfl⟩ := List.mem_map.1 hp
        obtain ⟨x, hx⟩ := get (List.mem_range.1 hi)
        simp only [pairTexts, switchText, hx, Option.toList_some] at he
        cases he
        exact .command (List.mem_of_getElem? hx)
      · split at hp
        · obtain ⟨i, j, hi, hj, hne, rfl⟩ := mem_pairRows.1 hp
          obtain ⟨x, hx⟩ := get hi
          obtain ⟨y, hy⟩ := get hj
          simp only [pairTexts, switchText, hx, hy, Option.toList_some] at he
          cases he
          exact .switches hne hx hy
        · cases hp
    · rintro (hx | ⟨hne, hx, hy⟩)
      · obtain ⟨i, hi, hx⟩ := List.getElem_of_mem hx
        refine ⟨⟨i, none⟩, List.mem_append.2 (.inl (List.mem_map.2 ⟨i, List.mem_range.2 hi, rfl⟩)), ?_⟩
        simp [pairTexts, switchText, List.getElem?_eq_getElem hi, hx]
      · rename_i i j x y
        have hi := (List.getElem?_eq_some_iff.1 hx).1
        have hj := (List.getElem?_eq_some_iff.1 hy).1
        refine ⟨⟨i, some j⟩, List.mem_append.2 (.inr ?_), by simp [pairTexts, switchText, hx, hy]⟩
        rw [if_pos (by omega)]
        exact mem_pairRows.2 ⟨i, j, hi, hj, hne, rfl⟩

theorem joined_ne {c : PbCommand} {a b : List Char} (h : JoinedSwitches c a b) : a ≠ [] := by
  cases h <;> simp

theorem replacePairs_none : ∀ (ps : List (List Char × List Char)) (s : List Char), (∀ p ∈ ps, p.1 ≠ [] ∧ ∀ i, ¬ OccursAtI p.1 s i) →
    replacePairs ps s = .ok s
  | [], s, _ => rfl
  | p :: ps, s, h => by
    obtain ⟨h1, h2⟩ := h p (by simp)
    rw [replacePairs, replaceIText, replaceI_none p.1 p.2 s h1 h2]
    simp only [Res.ok_bind, List.flatten_cons, List.flatten_nil, List.append_nil]
    exact replacePairs_none ps s fun q hq => h q (by simp [hq])

theorem replaceCommands_none : ∀ (cs : List PbCommand) (s : List Char), (∀ c ∈ cs, c.switches ≠ []) → SwitchesApart cs s →
    replaceCommands cs s = .ok s
  | [], s, _, _ => rfl
  | c :: cs, s, hne, h => by
    obtain ⟨ps, h1, -, h2⟩ := C90_pairs c (hne c (by simp))
    rw [replaceCommands, h1]
    simp only [Res.ok_bind]
    rw [replacePairs_none]
    · simp only [Res.ok_bind]
      exact replaceCommands_none cs s (fun d hd => hne d (by simp [hd])) fun d hd => h d (by simp [hd])
    · intro p hp
      have hj := (h2 p.1 p.2).1 hp
      exact ⟨joined_ne hj, h c (by simp) _ _ hj⟩

theorem pbCommands_ne : ∀ c ∈ pbCommands, c.switches ≠ [] := by decide

/-- A script in which no switch is joined to anything is written as it is, all of it, with its line ends made uniform.  Partial: a script with
something to separate is damaged (`C90_damaged`, `C90_end`). -/
theorem C90_apart_partial (g : Nat → Char) (s : List Char) (e : Estr) (t0 : List Char) (h : Holds e t0) (hlen : e.len ≤ 2 ^ 28) (hnul : NUL ∉ s)
    (hb : ∀ l ∈ lines s, l.length ≤ 2 ^ 27) (texts : List (List Char)) (hr : Reads g e s texts) (ha : SwitchesApart pbCommands (normNL s)) :
    pbatize texts = .ok (normNL s) := by
  have ht := (C04_reads_lines g s e t0 h (.inl hlen) hnul hb texts).1 hr
  unfold pbatize
  rw [ht, C04_concat]
  exact replaceCommands_none _ _ pbCommands_ne ha

theorem mid_unique {α : Type} {u v u' v' : List α} {c : α} (h : u ++ c :: v = u' ++ c :: v') (h1 : c ∉ u') (h2 : c ∉ v') : u = u' ∧ v = v' := by
  rcases List.append_eq_append_iff.1 h with ⟨w, rfl, hw⟩ | ⟨w, rfl, hw⟩
  · cases w with
    | nil => simpa using hw
    | cons x w =>
      simp only [List.cons_append, List.cons.injEq] at hw
      rw [hw.1] at h1
      simp at h1
  · cases w with
    | nil => simpa using hw.symm
    | cons x w =>
      simp only [List.cons_append, List.cons.injEq] at hw
      rw [hw.2] at h2
      simp at h2

theorem slash_low {l : List Char} (h : '/' ∉ l) : '/' ∉ l.map Char.toLower := by
  intro hm
  obtain ⟨c, hc, e⟩ := List.mem_map.1 hm
  exact h (by rw [← toLower_slash e]; exact hc)

/-- A text with one slash after a blank has nothing joined. -/
theorem apart_one (a : List Char) (b : List Char) (ha : '/' ∉ a) (hb : '/' ∉ b) : SwitchesApart pbCommands (a ++ ' ' :: '/' :: b) := by
  intro c hc x y hj i hi
  obtain ⟨v, hv⟩ := hi
  have hs := List.take_append_drop i ((a ++ ' ' :: '/' :: b).map Char.toLower)
  rw [← hv] at hs
  have e1 : (a ++ ' ' :: '/' :: b).map Char.toLower = (a.map Char.toLower ++ [' ']) ++ '/' :: b.map Char.toLower := by
    simp only [List.map_append, List.map_cons, List.append_assoc, List.cons_append, List.nil_append]
    rfl
  have na : '/' ∉ a.map Char.toLower ++ [' '] := by
    simp only [List.mem_append, List.mem_singleton, not_or]
    exact ⟨slash_low ha, by decide⟩
  generalize hu : ((a ++ ' ' :: '/' :: b).map Char.toLower).take i = u at hs
  rw [e1] at hs
  cases hj with
  | @command x hx =>
    have e2 : (c.cmd ++ ['/', x]).map Char.toLower = c.cmd.map Char.toLower ++ '/' :: [x.toLower] := by
      simp only [List.map_append, List.map_cons, List.map_nil]
      rfl
    rw [e2] at hs
    obtain ⟨h1, -⟩ := mid_unique (u := u ++ c.cmd.map Char.toLower) (v := x.toLower :: v) (c := '/') (by simpa using hs) na (slash_low hb)
    have h2 := congrArg List.getLast? h1
    have hlast : ∀ c ∈ pbCommands, c.cmd ≠ [] ∧ (c.cmd.map Char.toLower).getLast? ≠ some ' ' := by decide +kernel
    obtain ⟨k1, k2⟩ := hlast c hc
    rw [List.getLast?_append, List.getLast?_append] at h2
    cases hl : (c.cmd.map Char.toLower).getLast? with
    | none =>
      rw [List.getLast?_eq_none_iff, List.map_eq_nil_iff] at hl
      exact k1 hl
    | some z =>
      rw [hl] at h2 k2
      simp at h2
      exact k2 (by rw [h2])
  | @switches p q x y hne hx hy =>
    have e2 : ['/', y, '/', x].map Char.toLower = '/' :: y.toLower :: '/' :: [x.toLower] := by
      simp only [List.map_cons, List.map_nil]
      rfl
    rw [e2] at hs
    obtain ⟨-, h2⟩ := mid_unique (u := u) (v := y.toLower :: '/' :: x.toLower :: v) (c := '/') (by simpa using hs) na (slash_low hb)
    have := slash_low hb
    rw [← h2] at this
    simp at this

theorem occurs_head {p s : List Char} (h : p.map Char.toLower = s.map Char.toLower) (t : List Char) : OccursAtI p (s ++ t) 0 := by
  unfold OccursAtI OccursAt
  rw [h, List.map_append, List.drop_zero]
  exact List.prefix_append _ _

/-- The first pair looked for. -/
theorem first_pair : ∃ ps cs, pairsOf ['S', 'Q'] = .ok (⟨0, none⟩ :: ps) ∧ pbCommands = ⟨['R', 'D'], ['S', 'Q']⟩ :: cs := ⟨_, _, by
  rw [pairsOf_eq _ (by simp)]
  rfl, rfl⟩

/-- Violation: `RD/S`, in any case of letters, is not changed into `RD /S`: its first letter is doubled and the character after it, here the
blank before the directory, is lost. -/
theorem C90_damaged {r d s : Char} (hr : r.toLower = 'r') (hd : d.toLower = 'd') (hs : s.toLower = 's') (x : Char) (t : List Char) (ht : '/' ∉ t) :
    pbatize [[r, d, '/', s, x] ++ t] = .ok (r :: ['R', 'D', ' ', '/', 'S'] ++ t) := by
  obtain ⟨ps, cs, h1, h2⟩ := first_pair
  have hocc : OccursAtI ['R', 'D', '/', 'S'] ([r, d, '/', s] ++ x :: t) 0 := occurs_head (by simp [hr, hd, hs]) _
  have hr' : r ≠ '/' := by rintro rfl; revert hr; decide
  have hap : SwitchesApart pbCommands (r :: ['R', 'D', ' ', '/', 'S'] ++ t) := by
    have := apart_one [r, 'R', 'D'] ('S' :: t) (by simp [Ne.symm hr']) (by simp [ht])
    simpa using this
  have hstep : replaceIText ['R', 'D', '/', 'S'] ['R', 'D', ' ', '/', 'S'] ([r, d, '/', s] ++ x :: t) = .ok (r :: ['R', 'D', ' ', '/', 'S'] ++ t) := by
    rw [replaceIText, C03_actual_first_step _ _ _ 0 hocc (by simp) (by omega), if_neg (by simp)]
    simp only [List.cons_append, List.nil_append, List.length_cons, List.length_nil, Nat.zero_add, List.drop_succ_cons, List.drop_zero]
    rw [replaceI_none _ _ t (by simp)]
    · simp [Res.ok_bind, Res.pure_eq]
    · intro i hi
      obtain ⟨v, hv⟩ := hi
      have : '/' ∈ t.map Char.toLower := by
        apply List.mem_of_mem_drop (i := i)
        rw [← hv]
        simp only [List.map_cons, List.mem_append, List.mem_cons]
        exact .inl (.inr (.inr (.inl (by decide))))
      exact slash_low ht this
  unfold pbatize
  have e : [[r, d, '/', s, x] ++ t].flatten = [r, d, '/', s] ++ x :: t := by simp
  rw [e, h2, replaceCommands]
  have hnone := replaceCommands_none pbCommands _ pbCommands_ne hap
  rw [h2, replaceCommands] at hnone
  rw [h1] at hnone ⊢
  simp only [Res.ok_bind, List.map_cons] at hnone ⊢
  have hp : pairTexts ⟨['R', 'D'], ['S', 'Q']⟩ ⟨0, none⟩ = (['R', 'D', '/', 'S'], ['R', 'D', ' ', '/', 'S']) := by decide
  rw [hp] at hnone ⊢
  rw [replacePairs] at hnone ⊢
  rw [hstep]
  simp only at hnone ⊢
  have hno : ∀ i, ¬ OccursAtI ['R', 'D', '/', 'S'] (r :: ['R', 'D', ' ', '/', 'S'] ++ t) i :=
    hap ⟨['R', 'D'], ['S', 'Q']⟩ (by rw [h2]; simp) _ _ (.command (x := 'S') (by simp))
  rw [replaceIText, replaceI_none _ _ _ (by simp) hno] at hnone
  simpa [Res.ok_bind] using hnone

/-- Violation: with a switch joined to its command at the very end of the script, memory after the text is read. -/
theorem C90_end {r d s : Char} (hr : r.toLower = 'r') (hd : d.toLower = 'd') (hs : s.toLower = 's') : pbatize [[r, d, '/', s]] = .ub := by
  obtain ⟨ps, cs, h1, h2⟩ := first_pair
  have hocc : OccursAtI ['R', 'D', '/', 'S'] ([r, d, '/', s] ++ []) 0 := occurs_head (by simp [hr, hd, hs]) _
  have hp : pairTexts ⟨['R', 'D'], ['S', 'Q']⟩ ⟨0, none⟩ = (['R', 'D', '/', 'S'], ['R', 'D', ' ', '/', 'S']) := by decide
  unfold pbatize
  rw [show [[r, d, '/', s]].flatten = [r, d, '/', s] ++ [] by simp, h2, replaceCommands, h1]
  simp only [Res.ok_bind, List.map_cons]
  rw [hp, replacePairs, replaceIText, C03_actual_first_step _ _ _ 0 hocc (by simp) (by omega), if_pos (by simp)]
  rfl

/-- Violation: the documented removal of excessive carets is not done: a script of lines without slashes is written as it is, whatever its
carets. -/
theorem C90_carets (s : List Char) (h : '/' ∉ s) : pbatize [s] = .ok s := by
  unfold pbatize
  rw [show [s].flatten = s by simp]
  apply replaceCommands_none _ _ pbCommands_ne
  intro c hc x y hj i hi
  obtain ⟨v, hv⟩ := hi
  refine slash_low h (List.mem_of_mem_drop (i := i) ?_)
  rw [← hv, List.mem_append, List.mem_map]
  refine .inl ⟨'/', ?_, by decide⟩
  cases hj <;> simp

/-- Each command of the manual with each of its switches, and each two of its switches, is among the texts separated; with the command no other switch is. -/
theorem C90_known (n sw : List Char) (h : (n, sw) ∈ joinable) :
    ∃ c ∈ pbCommands, (∀ x ∈ sw, JoinedSwitches c (n ++ ['/', x]) (n ++ [' ', '/', x])) ∧
      (∀ x ∈ sw, ∀ y ∈ sw, x ≠ y → JoinedSwitches c ['/', y, '/', x] ['/', y, ' ', '/', x]) ∧
      ∀ x, JoinedSwitches c (n ++ ['/', x]) (n ++ [' ', '/', x]) → x ∈ sw := by
  have ht : ∀ p ∈ joinable, ∃ c ∈ pbCommands, c.cmd = p.1 ∧ (∀ x ∈ p.2, x ∈ c.switches) ∧ ∀ x ∈ c.switches, x ∈ p.2 := by decide +kernel
  obtain ⟨c, hc, h1, h2, h3⟩ := ht _ h
  replace h1 : c.cmd = n := h1
  refine ⟨c, hc, ?_, ?_, ?_⟩
  · intro x hx
    rw [← h1]
    exact .command (h2 x hx)
  · intro x hx y hy hne
    obtain ⟨i, hi, ei⟩ := List.mem_iff_getElem.1 (h2 x hx)
    obtain ⟨j, hj, ej⟩ := List.mem_iff_getElem.1 (h2 y hy)
    refine .switches (i := i) (j := j) ?_ ?_ ?_
    · rintro rfl; exact hne (ei.symm.trans ej)
    · rw [List.getElem?_eq_getElem hi, ei]
    · rw [List.getElem?_eq_getElem hj, ej]
  · intro x hj
    generalize ha : n ++ ['/', x] = a at hj
    generalize hb : n ++ [' ', '/', x] = b at hj
    cases hj with
    | @command y hy =>
      rw [h1] at ha
      have := List.append_cancel_left ha
      simp at this
      exact h3 x (this ▸ hy)
    | @switches i j z y hne hi hjj =>
      exfalso
      have hn : ∀ p ∈ joinable, '/' ∉ p.1 := by decide +kernel
      have := congrArg List.length ha
      simp at this
      match n, this with
      | [u, v], _ => simp at ha; exact hn _ h (by simp [ha.1])

/-! ### Examples -/

example : pairsOf ['P', 'F', 'S'] = .ok [⟨0, none⟩, ⟨1, none⟩, ⟨2, none⟩, ⟨0, some 1⟩, ⟨0, some 2⟩, ⟨1, some 0⟩, ⟨1, some 2⟩, ⟨2, some 0⟩,
    ⟨2, some 1⟩] := by
  rw [pairsOf_eq _ (by simp)]
  decide

example : pbatize ["rd/s d\n".toList] = .ok "rRD /Sd\n".toList :=
  C90_damaged (by decide) (by decide) (by decide) ' ' ['d', '\n'] (by decide)

example : SwitchesApart pbCommands "rd /s d\n".toList := apart_one ['r', 'd'] ['s', ' ', 'd', '\n'] (by decide) (by decide)

end PBat
