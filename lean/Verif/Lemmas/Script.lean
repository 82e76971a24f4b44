import Verif.Model.Script
import Verif.Lemmas.Block
import Verif.Lemmas.ParseBlocks
/-
Lemmas on reading commands that span several lines: what the scanner finds in a text it also finds in every longer text.
-/
namespace PBat
open Spec

theorem searchOut_stable {p : Char → Bool} {s : List Char} {i : Nat} (h : searchOutQuotes p s = some i) (u : List Char) :
    searchOutQuotes p (s ++ u) = some i := by
  have hf := searchOutQuotes_spec p s
  rw [h] at hf
  have hi := searchOutQuotes_lt h
  apply IsFirst_unique (searchOutQuotes_spec p (s ++ u))
  refine ⟨?_, ?_⟩
  · show Hit p (s ++ u) i ∧ OutQuotes (s ++ u) i
    rw [Hit_prefix _ _ _ _ hi, OutQuotes_prefix _ hi]
    exact hf.1
  · intro j hj
    show ¬ (Hit p (s ++ u) j ∧ OutQuotes (s ++ u) j)
    rw [Hit_prefix _ _ _ _ (by omega), OutQuotes_prefix _ (by omega)]
    exact hf.2 j hj

theorem searchOut_late {p : Char → Bool} {s : List Char} (h : searchOutQuotes p s = none) {u : List Char} {i : Nat}
    (hi : searchOutQuotes p (s ++ u) = some i) : s.length ≤ i := by
  have hf := searchOutQuotes_spec p s
  rw [h] at hf
  have hg := searchOutQuotes_spec p (s ++ u)
  rw [hi] at hg
  rcases Nat.lt_or_ge i s.length with hlt | hge
  · have := hg.1
    simp only at this
    rw [Hit_prefix _ _ _ _ hlt, OutQuotes_prefix _ hlt] at this
    exact absurd this (hf i)
  · exact hge

theorem searchTok_stable {p : Char → Bool} {s : List Char} {i : Nat} (h : searchTok p s = some i) (u : List Char) :
    searchTok p (s ++ u) = some i := by
  have hf := searchTok_first p s
  rw [h] at hf
  have hi := searchTok_lt _ _ _ h
  apply IsFirst_unique (searchTok_first p (s ++ u))
  refine ⟨?_, ?_⟩
  · rw [Hit_prefix _ _ _ _ hi]
    exact hf.1
  · intro j hj
    rw [Hit_prefix _ _ _ _ (by omega)]
    exact hf.2 j hj

theorem searchTok_late {p : Char → Bool} {s : List Char} (h : searchTok p s = none) {u : List Char} {i : Nat}
    (hi : searchTok p (s ++ u) = some i) : s.length ≤ i := by
  have hf := searchTok_first p s
  rw [h] at hf
  have hg := searchTok_first p (s ++ u)
  rw [hi] at hg
  rcases Nat.lt_or_ge i s.length with hlt | hge
  · have := hg.1
    rw [Hit_prefix _ _ _ _ hlt] at this
    exact absurd this (hf i)
  · exact hge

theorem searchHybrid_stable {p q : Char → Bool} {s : List Char} {i : Nat} (h : searchHybrid p q s = some i) (u : List Char) :
    searchHybrid p q (s ++ u) = some i := by
  have hi := searchHybrid_lt h
  unfold searchHybrid at h ⊢
  cases h1 : searchTok p s with
  | none =>
    rw [h1] at h
    cases h2 : searchOutQuotes q s with
    | none => rw [h2] at h; cases h
    | some j =>
      rw [h2] at h
      simp only at h
      rw [searchOut_stable h2 u]
      cases h3 : searchTok p (s ++ u) with
      | none => simpa using h
      | some k =>
        have := searchTok_late h1 h3
        have : j < s.length := searchOutQuotes_lt h2
        simp only
        cases h
        split
        · rfl
        · exfalso; omega
  | some k =>
    rw [h1] at h
    rw [searchTok_stable h1 u]
    cases h2 : searchOutQuotes q s with
    | none =>
      rw [h2] at h
      simp only at h
      cases h3 : searchOutQuotes q (s ++ u) with
      | none => simpa using h
      | some j =>
        have := searchOut_late h2 h3
        have : k < s.length := searchTok_lt _ _ _ h1
        simp only
        cases h
        split
        · exfalso; omega
        · rfl
    | some j =>
      rw [h2] at h
      rw [searchOut_stable h2 u]
      exact h

theorem hybridTo_stable {q : Char → Bool} {s : List Char} {c : Char} {r : List Char} (h : hybridTo q s = c :: r)
    (u : List Char) : hybridTo q (s ++ u) = c :: (r ++ u) := by
  unfold hybridTo dropTo at h ⊢
  cases hs : searchHybrid (· == '\n') q s with
  | none => rw [hs] at h; cases h
  | some i =>
    rw [hs] at h
    have hi := searchHybrid_lt hs
    rw [searchHybrid_stable hs u]
    simp only at h ⊢
    rw [List.drop_append_of_le_length (by omega), h]
    rfl

theorem hybridTo_char {q : Char → Bool} {s : List Char} {c : Char} {r : List Char} (h : hybridTo q s = c :: r) :
    c ∈ s ∧ (c = '\n' ∨ q c = true) := by
  refine ⟨(hybridTo_suffix q s).mem (by rw [h]; simp), ?_⟩
  unfold hybridTo dropTo at h
  cases hs : searchHybrid (· == '\n') q s with
  | none => rw [hs] at h; cases h
  | some i =>
    rw [hs] at h
    simp only at h
    have hc : s[i]? = some c := by
      have := congrArg List.head? h
      simpa using this
    unfold searchHybrid at hs
    have h1 : ∀ j, searchTok (· == '\n') s = some j → j = i → c = '\n' := by
      rintro j hj rfl
      have hf := searchTok_first (· == '\n') s
      rw [hj] at hf
      obtain ⟨⟨d, hd, hp⟩, -⟩ := hf.1
      rw [hc] at hd
      cases hd
      simpa using hp
    have h2 : ∀ j, searchOutQuotes q s = some j → j = i → q c = true := by
      rintro j hj rfl
      have hf := searchOutQuotes_spec q s
      rw [hj] at hf
      obtain ⟨⟨⟨d, hd, hp⟩, -⟩, -⟩ := hf.1
      rw [hc] at hd
      cases hd
      exact hp
    split at hs
    · cases hs
    · next h => cases hs; exact .inr (h2 _ h rfl)
    · next h _ => cases hs; exact .inl (h1 _ h rfl)
    · next ha hb =>
      split at hs
      · cases hs; exact .inr (h2 _ hb rfl)
      · cases hs; exact .inl (h1 _ ha rfl)

theorem skipLineBlanks_stable {s : List Char} {c : Char} {r : List Char} (h : skipLineBlanks s = c :: r) (u : List Char) :
    skipLineBlanks (s ++ u) = c :: (r ++ u) := by
  induction s with
  | nil => simp [skipLineBlanks] at h
  | cons d s ih =>
    simp only [List.cons_append, skipLineBlanks] at h ⊢
    split
    · next hd => rw [if_pos hd] at h; exact ih h
    · next hd => rw [if_neg hd] at h; cases h; rfl

/-- A text with an operator or a line feed does not become a keyword by being extended. -/
theorem blockWord_stable {par : Bool} {s : List Char} (h : ¬ BlockWord s) {d : Char} (hd : d ∈ s) (hd2 : d = '\n' ∨ lineStop par d = true)
    (u : List Char) : ¬ BlockWord (s ++ u) := by
  rintro ⟨k, b, r, h1, h2, h3⟩
  rcases List.append_eq_append_iff.1 h1 with ⟨m, hk, hr⟩ | ⟨m, hk, hr⟩
  · have hdk : d ∈ k := by rw [hk]; simp [hd]
    have hmem := List.mem_map_of_mem (f := Char.toLower) hdk
    have : d = '\n' ∨ d = '&' ∨ d = '|' ∨ d = ')' := by
      rcases hd2 with h | h
      · exact .inl h
      · simp only [lineStop, Bool.or_eq_true, beq_iff_eq, Bool.and_eq_true] at h
        rcases h with (h | h) | ⟨-, h⟩ <;> simp [h]
    rcases this with rfl | rfl | rfl | rfl <;> rcases h3 with h3 | h3 | h3 <;> rw [h3] at hmem <;> revert hmem <;> decide
  · cases m with
    | nil =>
      simp only [List.append_nil] at hk
      subst hk
      have hmem := List.mem_map_of_mem (f := Char.toLower) hd
      have : d = '\n' ∨ d = '&' ∨ d = '|' ∨ d = ')' := by
        rcases hd2 with h | h
        · exact .inl h
        · simp only [lineStop, Bool.or_eq_true, beq_iff_eq, Bool.and_eq_true] at h
          rcases h with (h | h) | ⟨-, h⟩ <;> simp [h]
      rcases this with rfl | rfl | rfl | rfl <;> rcases h3 with h3 | h3 | h3 <;> rw [h3] at hmem <;> revert hmem <;> decide
    | cons x m =>
      simp only [List.cons_append, List.cons.injEq] at hr
      obtain ⟨rfl, -⟩ := hr
      exact h ⟨k, b, m, hk, h2, h3⟩

/-- Results on a text carry over to longer ones. -/
def Stable (u s : List Char) (f : List Char → Res (Option (List Char))) : Prop :=
  ∀ t : List Char, t ≠ [] → f s = .ok (some t) → f (s ++ u) = .ok (some (t ++ u))

theorem blockEnd_stable {u s : List Char} (ih : ∀ t : List Char, t.length < s.length → Stable u t blockLoop) :
    Stable u s blockEnd := by
  intro t ht h
  cases s with
  | nil => rw [blockEnd.eq_1] at h; cases h
  | cons c r =>
    rw [List.cons_append, blockEnd.eq_2]
    rw [blockEnd.eq_2] at h
    split
    · next hc => rw [if_pos hc] at h; exact ih r (by simp) t ht h
    · next hc => rw [if_neg hc] at h; cases h

theorem clauseEnd_stable {u : List Char} (par : Bool) {s : List Char}
    (hb : ∀ t : List Char, t.length ≤ s.length → Stable u t blockEnd)
    (ih : ∀ t : List Char, t.length < s.length → Stable u t (clauseEnd par)) : Stable u s (clauseEnd par) := by
  intro t ht h
  rw [clauseEnd.eq_1] at h
  split at h
  · cases h; exact absurd rfl ht
  · next c r hy =>
    have hlen : (c :: r).length ≤ s.length := by rw [← hy]; exact hybridTo_length _ _
    have hy' := hybridTo_stable hy u
    split at h
    · next hc =>
      subst hc
      split at h
      · next d r' hbe =>
        split at h
        · next hd =>
          subst hd
          split at h
          · cases h; exact absurd rfl ht
          · next hr =>
            split at h
            · next hlt =>
              have h1 := hb _ hlen _ (by simp) hbe
              have h2 := ih r' hlt t ht h
              simp only [List.cons_append] at h1
              rw [clauseEnd_block hy' h1 (by simp [hr]) (by simp; omega)]
              exact h2
            · cases h
        · cases h
      · cases h
      · cases h
      · cases h
    · next hc =>
      cases h
      exact clauseEnd_text hy' hc

theorem lineEnd_stable {u : List Char} (par : Bool) {s : List Char}
    (hb : ∀ t : List Char, t.length ≤ s.length → Stable u t blockEnd)
    (hc : ∀ t : List Char, t.length ≤ s.length → Stable u t (clauseEnd par)) : Stable u s (lineEnd par) := by
  intro t ht h
  rw [lineEnd.eq_1] at h
  split at h
  · cases h; exact absurd rfl ht
  · next c r hy =>
    have hlen : (c :: r).length ≤ s.length := by rw [← hy]; exact skipLineBlanks_length _
    have hy' := skipLineBlanks_stable hy u
    rw [lineEnd.eq_1]
    split
    · next h' => rw [hy'] at h'; cases h'
    · next c' r' h' =>
      rw [hy'] at h'
      cases h'
      split at h
      · next hpar =>
        rw [if_pos hpar]
        subst hpar
        split at h
        · next t' hbe =>
          cases h
          have ht' : t' ≠ [] := by rintro rfl; exact ht rfl
          have h1 := hb _ hlen _ ht' hbe
          rw [List.cons_append] at h1
          rw [h1]
          simp only
          rw [List.drop_append_of_le_length (by have := List.length_pos_iff.2 ht'; omega)]
        · cases h
        · cases h
        · cases h
      · next hpar =>
        rw [if_neg hpar]
        split at h
        · next hw =>
          have hw' : blockWord (c :: (r ++ u)) = true := by
            rw [blockWord_iff] at hw ⊢
            exact BlockWord_append hw u
          rw [if_pos hw']
          exact hc _ hlen t ht h
        · next hw =>
          cases hh : hybridTo (lineStop par) (c :: r) with
          | nil => rw [hh] at h; cases h; exact absurd rfl ht
          | cons d x =>
            rw [hh] at h
            cases h
            have hch := hybridTo_char hh
            have hw' : ¬ blockWord (c :: (r ++ u)) = true := by
              rw [blockWord_iff] at hw ⊢
              exact blockWord_stable hw hch.1 hch.2 u
            rw [if_neg hw']
            have := hybridTo_stable hh u
            rw [List.cons_append] at this
            rw [this]
            rfl

theorem blockLoop_stable {u s : List Char} (hl : Stable u s (lineEnd true))
    (ih : ∀ t : List Char, t.length < s.length → Stable u t blockLoop) : Stable u s blockLoop := by
  intro t ht h
  rw [blockLoop.eq_1] at h ⊢
  cases hle : lineEnd true s with
  | ub => rw [hle] at h; cases h
  | hang => rw [hle] at h; cases h
  | ok o =>
    rw [hle] at h
    match o, hle, h with
    | none, _, h => cases h
    | some [], _, h => cases h
    | some (c :: r), hle, h =>
      have h1 := hl _ (by simp) hle
      rw [h1]
      simp only [List.cons_append] at h ⊢
      split at h
      · next hc => rw [if_pos hc]; cases h; rfl
      · next hc =>
        rw [if_neg hc]
        match r, h with
        | [], h => cases h
        | d :: r', h =>
          simp only [List.cons_append] at h ⊢
          split at h
          · next hd => rw [if_pos hd]; cases h; rfl
          · next hd =>
            rw [if_neg hd]
            split at h
            · next hlt =>
              rw [if_pos (by simp only [List.length_cons, List.length_append] at hlt ⊢; omega)]
              exact ih _ hlt t ht h
            · cases h

theorem scan_stable (u : List Char) (n : Nat) : ∀ s : List Char, s.length ≤ n →
    Stable u s blockEnd ∧ (∀ par, Stable u s (clauseEnd par)) ∧ (∀ par, Stable u s (lineEnd par)) ∧ Stable u s blockLoop := by
  induction n using Nat.strongRecOn with
  | _ n ih =>
    have lt : ∀ s t : List Char, s.length ≤ n → t.length < s.length →
        (∀ par, Stable u t (clauseEnd par)) ∧ Stable u t blockLoop := fun s t hs ht =>
      ⟨(ih t.length (by omega) t (Nat.le_refl _)).2.1, (ih t.length (by omega) t (Nat.le_refl _)).2.2.2⟩
    have hB : ∀ s : List Char, s.length ≤ n → Stable u s blockEnd :=
      fun s hs => blockEnd_stable (fun t ht => (lt s t hs ht).2)
    have hC : ∀ s : List Char, s.length ≤ n → ∀ par, Stable u s (clauseEnd par) :=
      fun s hs par => clauseEnd_stable par (fun t ht => hB t (by omega)) (fun t ht => (lt s t hs ht).1 par)
    have hL : ∀ s : List Char, s.length ≤ n → ∀ par, Stable u s (lineEnd par) :=
      fun s hs par => lineEnd_stable par (fun t ht => hB t (by omega)) (fun t ht => hC t (by omega) par)
    intro s hs
    exact ⟨hB s hs, hC s hs, hL s hs, blockLoop_stable (hL s hs true) (fun t ht => (lt s t hs ht).2)⟩

theorem lineEnd_extend {par : Bool} {s t : List Char} (ht : t ≠ []) (h : lineEnd par s = .ok (some t)) (u : List Char) :
    lineEnd par (s ++ u) = .ok (some (t ++ u)) := (scan_stable u s.length s (Nat.le_refl _)).2.2.1 par t ht h

end PBat
