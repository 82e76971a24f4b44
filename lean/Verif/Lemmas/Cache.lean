import Verif.Model.Cache
/-
Lemmas about the cache of strings.
-/
namespace PBat

/-- The status bit of a string. -/
def statusBit (st : List (BitVec 32)) (x : Nat) : Bool :=
  match st[x / 32]? with
  | some w => w.getLsbD (x % 32)
  | none => true

theorem divmod_ne {x y : Nat} (h : x / 32 = y / 32) (hne : x ≠ y) : x % 32 ≠ y % 32 := by omega

theorem shl_bit (k j : Nat) (hj : j < 32) : (1#32 <<< k).getLsbD j = decide (j = k) := by
  rw [BitVec.getLsbD_shiftLeft, BitVec.getLsbD_one]
  simp only [hj, decide_true, Bool.true_and, show (0 : Nat) < 32 by omega]
  by_cases h : j = k
  · subst h; simp
  · simp [h]; omega

theorem bit_on (st : List (BitVec 32)) (x y : Nat) : statusBit (statusOn st x) y = (statusBit st y || decide (y = x)) := by
  unfold statusBit statusOn
  rw [List.getElem?_modify]
  have hy : y % 32 < 32 := Nat.mod_lt _ (by omega)
  by_cases h : x / 32 = y / 32
  · simp only [if_pos h]
    cases st[y / 32]? with
    | none => simp
    | some w =>
      simp only [Option.map_eq_map, Option.map_some, BitVec.getLsbD_or, shl_bit _ _ hy]
      congr 1
      by_cases he : y = x
      · subst he; simp
      · have := divmod_ne h.symm he
        simp [he, this]
  · simp only [if_neg h]
    have : y ≠ x := fun e => h (by rw [e])
    cases st[y / 32]? with
    | none => simp
    | some w => simp [this]

theorem bit_off (st : List (BitVec 32)) (x y : Nat) (hx : x / 32 < st.length) :
    statusBit (statusOff st x) y = (statusBit st y && !decide (y = x)) := by
  unfold statusBit statusOff
  rw [List.getElem?_modify]
  have hy : y % 32 < 32 := Nat.mod_lt _ (by omega)
  by_cases h : x / 32 = y / 32
  · simp only [if_pos h]
    cases hs : st[y / 32]? with
    | none =>
      rw [← h] at hs
      have := List.getElem?_eq_none_iff.1 hs
      omega
    | some w =>
      simp only [Option.map_eq_map, Option.map_some, BitVec.getLsbD_and, BitVec.getLsbD_not, shl_bit _ _ hy, hy, decide_true, Bool.true_and]
      congr 2
      by_cases he : y = x
      · subst he; simp
      · have := divmod_ne h.symm he
        simp [he, this]
  · simp only [if_neg h]
    have : y ≠ x := fun e => h (by rw [e])
    cases st[y / 32]? with
    | none => simp [this]
    | some w => simp [this]

theorem and_one (s : BitVec 32) : s &&& 1#32 = 0#32 ↔ s.getLsbD 0 = false := by
  constructor
  · intro h
    have := congrArg (·.getLsbD 0) h
    simpa using this
  · intro h
    apply BitVec.eq_of_getLsbD_eq
    intro i hi
    simp only [BitVec.getLsbD_and, BitVec.getLsbD_one, BitVec.getLsbD_zero]
    by_cases h0 : i = 0
    · subst h0; rw [h]; rfl
    · simp [h0]

/-- The bit found is clear and those before it are set; none is found only if all are set. -/
theorem scanWord_spec : ∀ (n j : Nat) (s : BitVec 32),
    (∀ k, scanWord n j s = some k → ∃ i, i < n ∧ k = j + i ∧ s.getLsbD i = false ∧ ∀ m, m < i → s.getLsbD m = true) ∧
    (scanWord n j s = none → ∀ i, i < n → s.getLsbD i = true)
  | 0, j, s => ⟨fun k h => (by cases h), fun _ i hi => by omega⟩
  | n + 1, j, s => by
    have ih := scanWord_spec n (j + 1) (s >>> 1)
    have hsh : ∀ i, (s >>> 1).getLsbD i = s.getLsbD (i + 1) := by
      intro i
      rw [BitVec.getLsbD_ushiftRight, Nat.add_comm]
    rw [scanWord]
    split
    · next h =>
      refine ⟨fun k hk => ?_, fun hk => by cases hk⟩
      cases hk
      exact ⟨0, by omega, by omega, (and_one s).1 h, fun m hm => by omega⟩
    · next h =>
      have h0 : s.getLsbD 0 = true := by
        rw [and_one] at h
        simpa using h
      refine ⟨fun k hk => ?_, fun hk i hi => ?_⟩
      · obtain ⟨i, hi, he, hb, hm⟩ := ih.1 k hk
        refine ⟨i + 1, by omega, by omega, by rw [← hsh]; exact hb, fun m hm' => ?_⟩
        cases m with
        | zero => exact h0
        | succ m => rw [← hsh]; exact hm m (by omega)
      · cases i with
        | zero => exact h0
        | succ i => rw [← hsh]; exact ih.2 hk i (by omega)

/-- The scan of all the words. -/
theorem scanStatus_spec : ∀ (ws : List (BitVec 32)) (i : Nat),
    (∀ k, scanStatus i ws = some k → ∃ y, k = i * 32 + y ∧ y / 32 < ws.length ∧ statusBit ws y = false ∧ ∀ z, z < y → statusBit ws z = true) ∧
    (scanStatus i ws = none → ∀ y, y / 32 < ws.length → statusBit ws y = true)
  | [], i => ⟨fun k h => (by cases h), fun _ y hy => by simp at hy⟩
  | w :: ws, i => by
    have ih := scanStatus_spec ws (i + 1)
    have hlow : ∀ y, y < 32 → statusBit (w :: ws) y = w.getLsbD y := by
      intro y hy
      unfold statusBit
      rw [Nat.div_eq_of_lt hy, Nat.mod_eq_of_lt hy]
      rfl
    have hhigh : ∀ y, statusBit (w :: ws) (y + 32) = statusBit ws y := by
      intro y
      unfold statusBit
      rw [Nat.add_div_right _ (by omega), Nat.add_mod_right]
      rfl
    have hnext : (∀ y, y < 32 → w.getLsbD y = true) →
        (∀ k, scanStatus (i + 1) ws = some k → ∃ y, k = i * 32 + y ∧ y / 32 < (w :: ws).length ∧ statusBit (w :: ws) y = false ∧
          ∀ z, z < y → statusBit (w :: ws) z = true) ∧
        (scanStatus (i + 1) ws = none → ∀ y, y / 32 < (w :: ws).length → statusBit (w :: ws) y = true) := by
      intro hw
      refine ⟨fun k hk => ?_, fun hk y hy => ?_⟩
      · obtain ⟨y, he, hl, hb, hm⟩ := ih.1 k hk
        refine ⟨y + 32, by omega, by simp only [List.length_cons]; omega, by rw [hhigh]; exact hb, fun z hz => ?_⟩
        by_cases hz32 : z < 32
        · rw [hlow z hz32]; exact hw z hz32
        · obtain ⟨z', rfl⟩ : ∃ z', z = z' + 32 := ⟨z - 32, by omega⟩
          rw [hhigh]; exact hm z' (by omega)
      · by_cases hy32 : y < 32
        · rw [hlow y hy32]; exact hw y hy32
        · obtain ⟨y', rfl⟩ : ∃ y', y = y' + 32 := ⟨y - 32, by omega⟩
          rw [hhigh]; exact ih.2 hk y' (by simp only [List.length_cons] at hy; omega)
    rw [scanStatus]
    split
    · next hne =>
      have hs := scanWord_spec 32 0 w
      split
      · next j hj =>
        refine ⟨fun k hk => ?_, fun hk => by cases hk⟩
        cases hk
        obtain ⟨y, hy, he, hb, hm⟩ := hs.1 j hj
        refine ⟨y, by omega, by simp only [List.length_cons]; omega, by rw [hlow y hy]; exact hb, fun z hz => ?_⟩
        rw [hlow z (by omega)]; exact hm z hz
      · next hj => exact hnext (fun y hy => hs.2 hj y hy)
    · next hne =>
      have hw : w = BitVec.allOnes 32 := Decidable.not_not.1 hne
      exact hnext (fun y hy => by rw [hw, BitVec.getLsbD_allOnes]; simpa using hy)

theorem statusOn_length (st : List (BitVec 32)) (x : Nat) : (statusOn st x).length = st.length := List.length_modify ..
theorem statusOff_length (st : List (BitVec 32)) (x : Nat) : (statusOff st x).length = st.length := List.length_modify ..

theorem setStr_same (f : Nat → CachedStr) (i : Nat) (v : CachedStr) : setStr f i v i = v := if_pos rfl
theorem setStr_ne {f : Nat → CachedStr} {i j : Nat} {v : CachedStr} (h : j ≠ i) : setStr f i v j = f j := if_neg h

/-- The state of the cache after the building loop has treated the elements before `i`. -/
theorem buildLoop_spec (al : Nat → Bool) : ∀ (n i : Nat) (c : Cache), i + n ≤ 32 * c.status.length →
    (∀ x, x < i → statusBit c.status x = !al x ∧ (al x = true → c.pool x = ⟨some [], defaultCap⟩)) →
    (∀ x, i ≤ x → statusBit c.status x = true) → ∀ x, x < i + n →
      (buildLoop al n i c).status.length = c.status.length ∧ (buildLoop al n i c).made = c.made ∧
      statusBit (buildLoop al n i c).status x = !al x ∧ (al x = true → (buildLoop al n i c).pool x = ⟨some [], defaultCap⟩)
  | 0, i, c, _, h, _, x, hx => ⟨rfl, rfl, h x (by omega)⟩
  | n + 1, i, c, hl, h, h', x, hx => by
    rw [buildLoop]
    split
    · next ha =>
      have hb : ∀ y, statusBit (statusOff c.status i) y = (statusBit c.status y && !decide (y = i)) := fun y => bit_off c.status i y (by omega)
      have := buildLoop_spec al n (i + 1) { c with pool := setStr c.pool i ⟨some [], defaultCap⟩, status := statusOff c.status i }
        (by rw [statusOff_length]; omega) ?_ ?_ x (by omega)
      · rw [statusOff_length] at this; exact this
      · intro y hy
        simp only [hb]
        by_cases e : y = i
        · subst e; rw [setStr_same]; simp [ha]
        · rw [setStr_ne e]
          have := h y (by omega)
          simpa [e] using this
      · intro y hy
        simp only [hb]
        rw [h' y (by omega)]
        simp; omega
    · next ha =>
      refine buildLoop_spec al n (i + 1) { c with pool := setStr c.pool i ⟨none, 0⟩ } (by simpa using by omega) ?_ ?_ x (by omega)
      · intro y hy
        simp only
        by_cases e : y = i
        · subst e
          rw [h' y (by omega)]
          simp [ha]
        · rw [setStr_ne e]; exact h y (by omega)
      · intro y hy
        exact h' y (by omega)

end PBat
