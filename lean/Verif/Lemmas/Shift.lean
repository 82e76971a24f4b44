import Verif.Model.Shift
import Verif.Spec.Shift
import Verif.Lemmas.Args
import Verif.Lemmas.Replace
/-
Helper lemmas for script arguments.
-/
namespace PBat
open Spec

/-- What expansion depends on: the expansion mode, the loop variables, the environment. -/
structure Ctx where
  delayed : Bool
  loops : LocalBlock
  mods : List Char → Char → List Char → List Char
  getv : List Char → Res (Option (List Char))

/-- `pBat_DelayedExpand` in a context. -/
def Ctx.ex (x : Ctx) : List Char → Res (List Char) := delayedExpand x.delayed x.loops x.mods x.getv

/-! ### Names -/

theorem argName_toNat {i : Nat} (h : i < 10) : (argName i).toNat = 48 + i := by
  have : ∀ i < 10, (argName i).toNat = 48 + i := by decide
  exact this i h

theorem argName_inj {i j : Nat} (hi : i < 10) (hj : j < 10) (h : argName i = argName j) : i = j := by
  have := congrArg Char.toNat h
  rw [argName_toNat hi, argName_toNat hj] at this
  omega

theorem argName_local {i : Nat} (h : i < 10) : localName (argName i) = true := by
  have : ∀ i < 10, localName (argName i) = true := by decide
  exact this i h

theorem argName_ne_plus {i : Nat} (h : i < 10) : argName i ≠ '+' := by
  have : ∀ i < 10, argName i ≠ '+' := by decide
  exact this i h

theorem setLocalVar_arg {b : LocalBlock} {i : Nat} (h : i < 10) (v : Option (List Char)) (x : Char) :
    setLocalVar b (argName i) v x = if x = argName i then v else b x := by
  simp [setLocalVar, argName_local h]

theorem setLocalVar_same {b : LocalBlock} {i : Nat} (h : i < 10) (v : Option (List Char)) :
    setLocalVar b (argName i) v (argName i) = v := by
  rw [setLocalVar_arg h, if_pos rfl]

theorem setLocalVar_other {b : LocalBlock} {i j : Nat} (h : i < 10) (hj : j < 10) (hij : j ≠ i) (v : Option (List Char)) :
    setLocalVar b (argName i) v (argName j) = b (argName j) := by
  rw [setLocalVar_arg h, if_neg (fun e => hij (argName_inj hj h e))]

/-- Not an argument changed by `SHIFT`. -/
def OtherVar (x : Char) : Prop := (∀ i, i < 10 → x ≠ argName i)

theorem setLocalVar_otherVar {b : LocalBlock} {i : Nat} (h : i < 10) (v : Option (List Char)) {x : Char}
    (hx : OtherVar x) : setLocalVar b (argName i) v x = b x := by
  rw [setLocalVar_arg h, if_neg (hx i h)]

theorem otherVar_plus : OtherVar '+' := fun i h e => argName_ne_plus h e.symm

theorem setPlus (b : LocalBlock) (v : Option (List Char)) (x : Char) :
    setLocalVar b '+' v x = if x = '+' then v else b x := by
  have : localName '+' = true := by decide
  simp [setLocalVar, this]

/-! ### Loops -/

theorem moveArgs_spec (b : LocalBlock) (i d : Nat) :
    (moveArgs b i d).2 = max i (10 - d) ∧
    (∀ n, n < 10 → i ≤ n → n + d < 10 → (moveArgs b i d).1 (argName n) = b (argName (n + d))) ∧
    (∀ n, n < 10 → (n < i ∨ 10 ≤ n + d) → (moveArgs b i d).1 (argName n) = b (argName n)) ∧
    (∀ x, OtherVar x → (moveArgs b i d).1 x = b x) := by
  induction hk : 10 - i generalizing b i with
  | zero =>
    rw [moveArgs.eq_1, if_neg (by omega)]
    refine ⟨by omega, ?_, by simp, by simp⟩
    intro n h1 h2 h3; omega
  | succ k ih =>
    rw [moveArgs.eq_1]
    by_cases h : i + d < 10
    · rw [if_pos h]
      have hi : i < 10 := by omega
      obtain ⟨e1, e2, e3, e4⟩ := ih (setLocalVar b (argName i) (b (argName (i + d)))) (i + 1) (by omega)
      refine ⟨by rw [e1]; omega, ?_, ?_, ?_⟩
      · intro n h1 h2 h3
        by_cases hn : n = i
        · subst hn
          rw [e3 n h1 (.inl (by omega)), setLocalVar_same hi]
        · rw [e2 n h1 (by omega) h3]
          by_cases hd : n + d = i
          · omega
          · rw [setLocalVar_other hi h3 hd]
      · intro n h1 h2
        rw [e3 n h1 (by omega)]
        rw [setLocalVar_other hi h1 (by omega)]
      · intro x hx
        rw [e4 x hx, setLocalVar_otherVar hi _ hx]
    · rw [if_neg h]
      refine ⟨by simp only; omega, ?_, by simp, by simp⟩
      intro n h1 h2 h3; omega

theorem emptyArgs_spec (b : LocalBlock) (i : Nat) :
    (∀ n, n < 10 → i ≤ n → emptyArgs b i (argName n) = some []) ∧
    (∀ n, n < 10 → n < i → emptyArgs b i (argName n) = b (argName n)) ∧
    (∀ x, OtherVar x → emptyArgs b i x = b x) := by
  induction hk : 10 - i generalizing b i with
  | zero =>
    rw [emptyArgs.eq_1, if_neg (by omega)]
    exact ⟨by intro n h1 h2; omega, by simp, by simp⟩
  | succ k ih =>
    rw [emptyArgs.eq_1]
    have hi : i < 10 := by omega
    rw [if_pos hi]
    obtain ⟨e1, e2, e3⟩ := ih (setLocalVar b (argName i) (some [])) (i + 1) (by omega)
    refine ⟨?_, ?_, ?_⟩
    · intro n h1 h2
      by_cases hn : n = i
      · subst hn; rw [e2 n h1 (by omega), setLocalVar_same hi]
      · exact e1 n h1 (by omega)
    · intro n h1 h2
      rw [e2 n h1 (by omega), setLocalVar_other hi h1 (by omega)]
    · intro x hx
      rw [e3 x hx, setLocalVar_otherVar hi _ hx]

/-! ### Readable texts -/

/-- `x` is read back as the parameter `a`, in every context. -/
def ReadsAs (x a : List Char) : Prop :=
  ∀ (c : Ctx) (w tail : List Char), (∀ d ∈ w, Blank d) → Stops tail →
    nextParam stdDelims c.ex (w ++ (x ++ tail)) = .ok (some (a, tail))

/-- `t` is read back as the list of parameters `as`. -/
inductive Kept : List Char → List (List Char) → Prop
  | nil {w} : (∀ d ∈ w, Blank d) → Kept w []
  | cons {w x a t as} : (∀ d ∈ w, Blank d) → ReadsAs x a → Stops t → Kept t as → Kept (w ++ (x ++ t)) (a :: as)

theorem readsAs_ne {x a : List Char} (h : ReadsAs x a) : x ≠ [] := by
  rintro rfl
  have h1 := h ⟨false, fun _ => none, fun _ _ _ => [], fun _ => .ok none⟩ [] [] (by simp) (.inl rfl)
  rw [nextParam_nil _ _ _ rfl] at h1
  simp at h1

theorem kept_next (c : Ctx) {t : List Char} {as : List (List Char)} (h : Kept t as) :
    (as = [] ∧ nextParam stdDelims c.ex t = .ok none) ∨
    (∃ a as' t', as = a :: as' ∧ nextParam stdDelims c.ex t = .ok (some (a, t')) ∧ Kept t' as' ∧
      t'.length < t.length) := by
  cases h with
  | nil hw =>
    left
    refine ⟨rfl, nextParam_nil _ _ _ ?_⟩
    have := skipBlanks_append (s := []) hw
    rw [List.append_nil] at this
    rw [this]; rfl
  | @cons w x a t as hw hx hst ht =>
    right
    have := List.length_pos_iff.2 (readsAs_ne hx)
    exact ⟨a, as, t, rfl, hx c w _ hw hst, ht, by simp; omega⟩

theorem fillArgs_kept (c : Ctx) (b : LocalBlock) (i : Nat) (hi : i ≤ 10) {t : List Char} {as : List (List Char)}
    (h : Kept t as) :
    ∃ b' t', fillArgs c.ex b i t = .ok (b', min 10 (i + as.length), t') ∧
      (as.length < 10 - i ↔ t' = none) ∧
      (∀ r, t' = some r → Kept r (as.drop (10 - i))) ∧
      (∀ n, n < 10 → n < i → b' (argName n) = b (argName n)) ∧
      (∀ n, n < 10 → i ≤ n → n < i + as.length → b' (argName n) = some (as.getD (n - i) [])) ∧
      (∀ x, OtherVar x → b' x = b x) := by
  induction hk : 10 - i generalizing b i t as with
  | zero =>
    rw [fillArgs.eq_1, if_neg (by omega)]
    refine ⟨b, some t, ?_, ?_, ?_, ?_, ?_, ?_⟩
    · congr 2; congr 1; omega
    · simp
    · intro r hr; injection hr with hr; subst hr; simpa using h
    · intros; rfl
    · intros; omega
    · intros; rfl
  | succ k ih =>
    rw [fillArgs.eq_1, if_pos (by omega)]
    have hi' : i < 10 := by omega
    rcases kept_next c h with ⟨rfl, hn⟩ | ⟨a, as', t', rfl, hn, hk', -⟩
    · rw [hn]
      refine ⟨b, none, ?_, ?_, ?_, ?_, ?_, ?_⟩
      · simp only [List.length_nil]; congr 2; congr 1; omega
      · simp
      · intro r hr; exact absurd hr (by simp)
      · intros; rfl
      · intro n h1 h2 h3; simp at h3; omega
      · intros; rfl
    · rw [hn]
      obtain ⟨b', r, e1, e2, e3, e4, e5, e6⟩ := ih (setLocalVar b (argName i) (some a)) (i + 1) (by omega) hk' (by omega)
      refine ⟨b', r, ?_, ?_, ?_, ?_, ?_, ?_⟩
      · simp only
        rw [e1, List.length_cons, Nat.add_assoc, Nat.add_comm 1]
      · rw [← e2, List.length_cons]; omega
      · intro r' hr'
        simpa using e3 r' hr'
      · intro n h1 h2
        rw [e4 n h1 (by omega), setLocalVar_other hi' h1 (by omega)]
      · intro n h1 h2 h3
        simp only [List.length_cons] at h3
        by_cases hn : n = i
        · subst hn
          rw [e4 n h1 (by omega), setLocalVar_same hi']
          simp
        · rw [e5 n h1 (by omega) (by omega)]
          have : n - i = (n - (i + 1)) + 1 := by omega
          rw [this, List.getD_cons_succ]
      · intro x hx
        rw [e6 x hx, setLocalVar_otherVar hi' _ hx]

/-- The variables hold the arguments `xs`, those after the ninth being kept in `%+`. -/
structure HoldsArgs (b : LocalBlock) (xs : List (List Char)) : Prop where
  first : ArgsAre b xs
  more : ∃ t, b '+' = some t ∧ Kept t (xs.drop 10)

theorem getD_append_lt {α} (l m : List α) (n : Nat) (d : α) (h : n < l.length) : (l ++ m).getD n d = l.getD n d := by
  simp [List.getD_eq_getElem?_getD, List.getElem?_append_left h]

theorem shifted_getD (i d : Nat) (xs : List (List Char)) (n : Nat) :
    (shifted i d xs).getD n [] = if n < i then xs.getD n [] else xs.getD (n + d) [] := by
  unfold shifted
  simp only [List.getD_eq_getElem?_getD]
  by_cases h : n < i
  · rw [if_pos h]
    by_cases hl : n < xs.length
    · rw [List.getElem?_append_left (by simp; omega), List.getElem?_take_of_lt h]
    · rw [List.getElem?_eq_none (l := xs) (by omega), List.getElem?_eq_none]
      simp; omega
  · rw [if_neg h]
    by_cases hl : i ≤ xs.length
    · rw [List.getElem?_append_right (by simp; omega), List.getElem?_drop]
      congr 2
      simp; omega
    · rw [List.getElem?_eq_none (l := xs) (by omega), List.getElem?_eq_none]
      simp; omega

theorem shifted_drop (i d : Nat) (xs : List (List Char)) (h : i + d ≤ 10) :
    (shifted i d xs).drop 10 = (xs.drop 10).drop d := by
  unfold shifted
  rw [List.drop_append, List.drop_eq_nil_of_le (by simp; omega), List.nil_append, List.drop_drop, List.drop_drop]
  by_cases hl : i ≤ xs.length
  · congr 1
    simp; omega
  · rw [List.drop_eq_nil_of_le (by simp; omega), List.drop_eq_nil_of_le (by omega)]

theorem kept_nil {as : List (List Char)} (h : Kept [] as) : as = [] := by
  generalize ht : ([] : List Char) = t at h
  cases h with
  | nil => rfl
  | cons _ hx =>
    have := congrArg List.length ht
    have := List.length_pos_iff.2 (readsAs_ne hx)
    simp at *
    omega

/-- One displacement. -/
theorem shiftArgs_holds (c : Ctx) {b : LocalBlock} {xs : List (List Char)} (h : HoldsArgs b xs) {i d : Nat}
    (hid : i + d ≤ 10) :
    ∃ b', shiftArgs c.ex b i d = .ok b' ∧ HoldsArgs b' (shifted i d xs) ∧
      ∀ x, OtherVar x → x ≠ '+' → b' x = b x := by
  obtain ⟨m1, m2, m3, m4⟩ := moveArgs_spec b i d
  obtain ⟨t, ht, hk⟩ := h.more
  have hm : max i (10 - d) = 10 - d := by omega
  rw [hm] at m1
  have hfirst := h.first
  have hf : ∀ n, n < 10 → b (argName n) = some (xs.getD n []) := hfirst
  have hlow : ∀ n, n < 10 - d → (moveArgs b i d).1 (argName n) = some ((shifted i d xs).getD n []) := by
    intro n hn
    rw [shifted_getD]
    by_cases hi : n < i
    · rw [if_pos hi, m3 n (by omega) (.inl hi), hf n (by omega)]
    · rw [if_neg hi, m2 n (by omega) (by omega) (by omega), hf _ (by omega)]
  have hhigh : ∀ n, 10 - d ≤ n → (shifted i d xs).getD n [] = (xs.drop 10).getD (n - (10 - d)) [] := by
    intro n hn
    rw [shifted_getD, if_neg (by omega)]
    simp only [List.getD_eq_getElem?_getD, List.getElem?_drop]
    congr 2; omega
  have hplus : (moveArgs b i d).1 '+' = some t := by rw [m4 _ otherVar_plus, ht]
  unfold shiftArgs
  simp only
  rw [m1]
  generalize hb : (moveArgs b i d).1 = bm at *
  have hempty : xs.drop 10 = [] → ArgsAre (emptyArgs bm (10 - d)) (shifted i d xs) := by
    intro he n hn
    obtain ⟨e1, e2, e3⟩ := emptyArgs_spec bm (10 - d)
    show emptyArgs bm (10 - d) (argName n) = _
    by_cases hnd : n < 10 - d
    · rw [e2 n hn hnd, hlow n hnd]
    · rw [e1 n hn (by omega), hhigh n (by omega), he]; simp
  unfold takeMore
  rw [hplus]
  cases t with
  | nil =>
    have he := kept_nil hk
    obtain ⟨e1, e2, e3⟩ := emptyArgs_spec bm (10 - d)
    refine ⟨_, rfl, ⟨hempty he, [], ?_, ?_⟩, ?_⟩
    · rw [e3 _ otherVar_plus, hplus]
    · rw [shifted_drop i d xs hid, he, List.drop_nil]; exact .nil (by simp)
    · intro x hx _
      rw [e3 x hx, m4 x hx]
  | cons ch t =>
    simp only
    by_cases hd : 10 - d < 10
    · rw [if_pos hd]
      obtain ⟨b', r, e1, e2, e3, e4, e5, e6⟩ := fillArgs_kept c bm (10 - d) (by omega) hk
      rw [e1]
      simp only [Res.ok_bind, Res.pure_eq]
      obtain ⟨g1, g2, g3⟩ := emptyArgs_spec (setLocalVar b' '+' (some (r.getD []))) (min 10 (10 - d + (xs.drop 10).length))
      have hset : ∀ n, n < 10 → setLocalVar b' '+' (some (r.getD [])) (argName n) = b' (argName n) := by
        intro n hn
        rw [setPlus, if_neg (argName_ne_plus hn)]
      refine ⟨_, rfl, ⟨?_, r.getD [], ?_, ?_⟩, ?_⟩
      · intro n hn
        show emptyArgs _ _ (argName n) = _
        by_cases hlt : n < min 10 (10 - d + (xs.drop 10).length)
        · rw [g2 n hn hlt, hset n hn]
          by_cases hnd : n < 10 - d
          · rw [e4 n hn hnd, hlow n hnd]
          · rw [e5 n hn (by omega) (by omega), hhigh n (by omega)]
        · rw [g1 n hn (by omega), hhigh n (by omega)]
          rw [List.getD_eq_getElem?_getD, List.getElem?_eq_none (by omega)]; rfl
      · rw [g3 _ otherVar_plus, setPlus, if_pos rfl]
      · rw [shifted_drop i d xs hid]
        cases r with
        | none =>
          have : (xs.drop 10).length < 10 - (10 - d) := e2.2 rfl
          rw [List.drop_eq_nil_of_le (by omega)]
          exact .nil (by simp)
        | some r =>
          have := e3 r rfl
          have hdd : 10 - (10 - d) = d := by omega
          rw [hdd] at this
          exact this
      · intro x hx hp
        rw [g3 x hx, setPlus, if_neg hp, e6 x hx, m4 x hx]
    · rw [if_neg hd]
      have hd0 : d = 0 := by omega
      subst hd0
      refine ⟨bm, rfl, ⟨?_, ch :: t, hplus, ?_⟩, fun x hx _ => m4 x hx⟩
      · intro n hn; exact hlow n (by omega)
      · rw [shifted_drop i 0 xs hid]; exact hk


/-! ### Escaped words -/

/-- Replacing one character by its escape. -/
theorem replaceIn_char (d : Char) (s : List Char) : replaceIn [d] ['^', d] s = .ok (escape (· == d) s) := by
  unfold replaceIn
  obtain ⟨ps, e, -⟩ := replacePieces_spec [d] ['^', d] (by simp) s
  have h : replaceText [d] ['^', d] s = escape (· == d) s := by
    clear e
    induction s with
    | nil => rw [replaceText_nil _ _ (by simp)]; rfl
    | cons c s ih =>
      rw [replaceText_cons _ _ (by simp)]
      unfold escape
      by_cases hc : c = d
      · subst hc
        simp [ih]
      · have : ¬ (d = c) := fun e => hc e.symm
        simp [hc, this, ih]
  rw [e]
  simp only [replaceText, e] at h
  simp [h]

theorem escape_escape {p q : Char → Bool} (hp : p '^' = false) (hd : ∀ c, p c = true → q c = false) (s : List Char) :
    escape p (escape q s) = escape (fun c => q c || p c) s := by
  induction s with
  | nil => rfl
  | cons c s ih =>
    simp only [escape]
    by_cases hq : q c = true
    · have hpc : p c = false := by
        cases h : p c with
        | false => rfl
        | true => rw [hd c h] at hq; exact absurd hq (by simp)
      simp [hq, hpc, escape, hp, ih]
    · simp only [Bool.not_eq_true] at hq
      simp only [hq, Bool.false_eq_true, if_false, escape, ih, Bool.false_or]

/-- The characters escaped in `%+`. -/
def keptChars (c : Char) : Bool := [' ', ';', ',', '\t', '"'].contains c

theorem escapeArg_eq (a : List Char) : escapeArg a = .ok (escape keptChars a) := by
  have one : ∀ (d : Char) (q : Char → Bool), (d == '^') = false → q d = false →
      escape (· == d) (escape q a) = escape (fun c => q c || c == d) a := by
    intro d q h1 h2
    apply escape_escape (p := (· == d))
    · show ('^' == d) = false
      rw [Bool.beq_comm]; exact h1
    · intro c h
      have : c = d := by simpa using h
      rw [this]; exact h2
  unfold escapeArg
  simp only [replaceIn_char, Res.ok_bind]
  rw [one _ _ (by decide) (by decide), one _ _ (by decide) (by decide), one _ _ (by decide) (by decide),
    one _ _ (by decide) (by decide)]
  congr 2
  funext c
  simp only [keptChars, List.contains_cons, List.contains_nil, Bool.or_false, Bool.or_assoc]

theorem escape_congr {p q : Char → Bool} {a : List Char} (h : ∀ c ∈ a, p c = q c) : escape p a = escape q a := by
  induction a with
  | nil => rfl
  | cons c a ih =>
    simp only [escape, h c (by simp), ih fun x hx => h x (by simp [hx])]

/-- No unescaped delimiter in an escaped text. -/
theorem no_hit_escape {p q : Char → Bool} (hq : q '^' = true) (hpc : p '^' = false) {a : List Char}
    (h : ∀ c ∈ a, p c = true → q c = true) (i : Nat) : ¬ Hit p (escape q a) i := by
  induction a generalizing i with
  | nil => rintro ⟨⟨c, hc, -⟩, -⟩; simp [escape] at hc
  | cons c a ih =>
    have ih := ih fun x hx => h x (by simp [hx])
    simp only [escape]
    by_cases hc : q c = true
    · rw [if_pos hc]
      have h2 : caretsBefore ['^', c] ['^', c].length % 2 = 0 := (Lead_pair (d := '"') (by decide) c).2
      have hsplit : '^' :: c :: escape q a = ['^', c] ++ escape q a := rfl
      rw [hsplit]
      intro hh
      by_cases h0 : i < 2
      · obtain ⟨⟨d, hd, hpd⟩, hf⟩ := hh
        have : i = 0 ∨ i = 1 := by omega
        rcases this with rfl | rfl
        · simp at hd; subst hd; rw [hpc] at hpd; exact absurd hpd (by simp)
        · revert hf; simp [Free, caretsBefore]
      · have he := (Hit_append (p := p) h2 (escape q a) (i - 2)).1
        have : ['^', c].length + (i - 2) = i := by simp; omega
        rw [this] at he
        exact ih _ (he hh)
    · rw [if_neg hc]
      have hcc : c ≠ '^' := by rintro rfl; exact hc hq
      have h2 : caretsBefore [c] [c].length % 2 = 0 := by simp [caretsBefore, hcc]
      have hsplit : c :: escape q a = [c] ++ escape q a := rfl
      rw [hsplit]
      intro hh
      cases i with
      | zero =>
        obtain ⟨⟨d, hd, hpd⟩, hf⟩ := hh
        simp at hd; subst hd
        exact hc (h c (by simp) hpd)
      | succ i =>
        have he := (Hit_append (p := p) h2 (escape q a) i).1
        have : [c].length + i = i + 1 := by simp; omega
        rw [this] at he
        exact ih _ (he hh)

theorem escape_even {q : Char → Bool} (hq : q '^' = true) (a : List Char) :
    caretsBefore (escape q a) (escape q a).length % 2 = 0 := by
  induction a with
  | nil => rfl
  | cons c a ih =>
    simp only [escape]
    by_cases hc : q c = true
    · rw [if_pos hc]
      have h2 : Lead '"' ['^', c] := Lead_pair (by decide) c
      have := Free_append (u := ['^', c]) h2.2 (escape q a) (escape q a).length
      have hl : ['^', c].length + (escape q a).length = ('^' :: c :: escape q a).length := by simp; omega
      rw [hl] at this
      exact this.2 ih
    · rw [if_neg hc]
      have hcc : c ≠ '^' := by rintro rfl; exact hc hq
      have h2 : caretsBefore [c] [c].length % 2 = 0 := by simp [caretsBefore, hcc]
      have := Free_append (u := [c]) h2 (escape q a) (escape q a).length
      have hl : [c].length + (escape q a).length = (c :: escape q a).length := by simp; omega
      rw [hl] at this
      exact this.2 ih


theorem paramEnd_escaped {q : Char → Bool} (hq : q '^' = true) {a tail : List Char}
    (h : ∀ c ∈ a, stdDelims c = true → q c = true) (ht : Stops tail) :
    paramEnd stdDelims (escape q a ++ tail) 0 = if tail = [] then none else some (escape q a).length := by
  have hno := no_hit_escape (p := stdDelims) hq (by decide) h
  rw [paramEnd.eq_1]
  rcases ht with rfl | ⟨b, r, rfl, hbl⟩
  · have h3 : searchFrom stdDelims (escape q a ++ []) 0 = none := by
      simp only [searchFrom, List.append_nil, List.drop_zero]
      rw [(searchTok_none_iff _ _).2 hno]; rfl
    split
    · rfl
    · rename_i h0; rw [h3] at h0; exact absurd h0 (by simp)
  · have hs : searchTok stdDelims (escape q a ++ b :: r) = some (escape q a).length := by
      apply IsFirst_unique (searchTok_first _ _)
      refine ⟨?_, ?_⟩
      · have := Hit_append (p := stdDelims) (escape_even hq a) (b :: r) 0
        rw [Nat.add_zero] at this
        exact this.2 ⟨⟨b, rfl, (stdDelims_iff b).2 (.inl hbl)⟩, rfl⟩
      · intro j hj
        rw [Hit_prefix _ _ _ _ hj]
        exact hno j
    have h3 : searchFrom stdDelims (escape q a ++ b :: r) 0 = some (escape q a).length := by
      simp [searchFrom, hs]
    split
    · rename_i h0; rw [h3] at h0; exact absurd h0 (by simp)
    · rename_i i h0
      rw [h3] at h0
      injection h0 with h0
      subst h0
      rw [if_neg]
      · simp
      · simp only [List.getElem?_append_right (Nat.le_refl _), Nat.sub_self, List.getElem?_cons_zero,
          Option.some.injEq]
        rintro rfl
        revert hbl; decide

/-- A word all of whose delimiters are escaped is extracted. -/
theorem nextParam_escaped {q : Char → Bool} (hqc : q '^' = true) (hqq : q '"' = true)
    (ex : List Char → Res (List Char)) {w a tail : List Char} (hw : ∀ c ∈ w, Blank c) (hne : a ≠ [])
    (hb : ∀ c ∈ a, stdDelims c = true → q c = true) (ht : Stops tail) :
    nextParam stdDelims ex (w ++ (escape q a ++ tail)) = (ex (escape q a) >>= fun t => pure (some (t, tail))) := by
  obtain ⟨c, cs, hcs, hc1, hc2⟩ : ∃ c cs, escape q a = c :: cs ∧ ¬ Blank c ∧ c ≠ '"' := by
    cases a with
    | nil => exact absurd rfl hne
    | cons c a =>
      simp only [escape]
      by_cases h : q c = true
      · rw [if_pos h]; exact ⟨'^', _, rfl, by decide, by decide⟩
      · rw [if_neg h]
        refine ⟨c, _, rfl, ?_, ?_⟩
        · intro hbl; exact h (hb c (by simp) ((stdDelims_iff c).2 (.inl hbl)))
        · rintro rfl; exact h hqq
  have hpe := paramEnd_escaped hqc hb ht
  have hne' := escape_ne_caret hqc a
  have hrest := restAt_eq (escape q a) tail
  have hsk : skipBlanks (w ++ (escape q a ++ tail)) = escape q a ++ tail := by
    rw [skipBlanks_append hw, hcs, List.cons_append, skipBlanks_stop hc1]
  have htext : paramText (escape q a ++ tail) (if tail = [] then none else some (escape q a).length) =
      .ok (escape q a) := by
    rw [hcs]
    have hcq : (c == '"') = false := by simpa using hc2
    by_cases h : tail = []
    · rw [if_pos h, h]
      simp [paramText, hcq]
    · rw [if_neg h]
      simp [paramText, hcq]
  rw [nextParam_eq stdDelims ex _ (escape q a) (by rw [hsk, hcs]; simp) (by rw [hsk, hpe]; exact htext) tail
    (by rw [hsk, hpe]; exact hrest)]
  rw [if_neg hne']

/-- The characters that would have to be escaped. -/
def allChars (p : Char → Bool) (c : Char) : Bool := p c || c == '^' || c == '%' || c == '!'

theorem escape_allChars {p : Char → Bool} {a : List Char} (h : Passable a) : escape p a = escape (allChars p) a := by
  apply escape_congr
  intro c hc
  obtain ⟨h1, h2, h3, h4⟩ := h.2 c hc
  have e1 : (c == '^') = false := by simpa using h1
  have e2 : (c == '%') = false := by simpa using h3
  have e3 : (c == '!') = false := by simpa using h4
  simp only [allChars, e1, e2, e3, Bool.or_false]

theorem readsAs_escape {p : Char → Bool} (hp : p '"' = true) {a : List Char} (h : Passable a)
    (hb : ∀ c ∈ a, Blank c → p c = true ∨ c = '\n') : ReadsAs (escape p a) a := by
  intro c w tail hw ht
  rw [escape_allChars h]
  rw [nextParam_escaped (by simp [allChars]) (by simp [allChars, hp]) c.ex hw h.1 ?_ ht]
  · have := delayedExpand_escape c.delayed c.loops c.mods c.getv (q := allChars p) (by simp [allChars])
      (by simp [allChars]) (by simp [allChars]) a
    unfold Ctx.ex
    rw [this]; rfl
  · intro d hd hs
    rcases (stdDelims_iff d).1 hs with hbl | rfl
    · rcases hb d hd hbl with hpd | rfl
      · simp [allChars, hpd]
      · exact absurd rfl (h.2 '\n' hd).2.1
    · simp [allChars, hp]

theorem readsAs_quoted {p : Char → Bool} (hp : p '"' = true) {a : List Char} (h : Passable a) :
    ReadsAs ('"' :: (escape p a ++ ['"'])) a := by
  intro c w tail hw ht
  rw [escape_allChars h]
  rw [nextParam_written (q := allChars p) (by simp [allChars, hp]) (by simp [allChars]) c.ex hw .quoted ht]
  have := delayedExpand_escape c.delayed c.loops c.mods c.getv (q := allChars p) (by simp [allChars])
    (by simp [allChars]) (by simp [allChars]) a
  unfold Ctx.ex
  rw [this]; rfl

theorem kept_blank {t : List Char} {as : List (List Char)} (h : Kept t as) : Kept (' ' :: t) as := by
  cases h with
  | nil hw => exact .nil (by intro d hd; rcases List.mem_cons.1 hd with rfl | hd; exact .inl rfl; exact hw d hd)
  | cons hw hx hs ht =>
    rw [← List.cons_append]
    exact .cons (by intro d hd; rcases List.mem_cons.1 hd with rfl | hd; exact .inl rfl; exact hw d hd) hx hs ht

theorem stops_blank (t : List Char) : Stops (' ' :: t) := .inr ⟨' ', t, rfl, .inl rfl⟩

theorem escapeArgs_kept (as : List (List Char)) (h : ∀ a ∈ as, Passable a) :
    ∃ t, escapeArgs as = .ok t ∧ Kept t as := by
  induction as with
  | nil => exact ⟨[], rfl, .nil (by simp)⟩
  | cons a as ih =>
    obtain ⟨t, e, hk⟩ := ih fun x hx => h x (by simp [hx])
    refine ⟨escape keptChars a ++ ' ' :: t, by simp [escapeArgs, escapeArg_eq, e], ?_⟩
    have := Kept.cons (w := []) (by simp) (readsAs_escape (p := keptChars) (by decide) (h a (by simp)) ?_) (stops_blank t) (kept_blank hk)
    · exact this
    · intro c _ hb
      rcases hb with rfl | rfl | rfl | rfl | rfl
      all_goals first | exact .inl (by decide) | exact .inr rfl

theorem commandLine_kept (as : List (List Char)) (h : ∀ a ∈ as, Passable a) :
    ∃ t, commandLine as = .ok t ∧ Kept t as := by
  induction as with
  | nil => exact ⟨[], rfl, .nil (by simp)⟩
  | cons a as ih =>
    obtain ⟨t, e, hk⟩ := ih fun x hx => h x (by simp [hx])
    have ha := h a (by simp)
    simp only [commandLine, replaceIn_char, e, Res.ok_bind, Res.pure_eq]
    by_cases hn : needsQuotes a = true
    · rw [if_pos hn]
      refine ⟨_, rfl, ?_⟩
      have := Kept.cons (w := []) (by simp) (readsAs_quoted (p := (· == '"')) (by decide) ha) (stops_blank t) (kept_blank hk)
      simpa using this
    · rw [if_neg hn]
      refine ⟨_, rfl, ?_⟩
      have := Kept.cons (w := []) (by simp) (readsAs_escape (p := (· == '"')) (by decide) ha ?_) (stops_blank t) (kept_blank hk)
      · simpa using this
      · intro c hc hb
        right
        have hnc : ¬ [' ', ',', ';', '=', '\t', '&', '|'].contains c = true := by
          intro h'
          exact hn (List.any_eq_true.2 ⟨c, hc, h'⟩)
        rcases hb with rfl | rfl | rfl | rfl | rfl
        all_goals first | exact absurd (by decide) hnc | rfl


theorem allParams_kept (c : Ctx) {t : List Char} {as : List (List Char)} (h : Kept t as) :
    allParams stdDelims c.ex t = .ok as := by
  induction as generalizing t with
  | nil =>
    rcases kept_next c h with ⟨-, hn⟩ | ⟨a, as', t', e, -⟩
    · rw [allParams.eq_1, hn]
    · exact absurd e (by simp)
  | cons a as ih =>
    rcases kept_next c h with ⟨e, -⟩ | ⟨a', as', t', e, hn, hk, hl⟩
    · exact absurd e (by simp)
    · injection e with e1 e2
      subst e1; subst e2
      rw [allParams.eq_1, hn]
      simp only
      rw [if_pos hl, ih hk]; rfl

/-! ### Written lines -/

theorem readsAs_written {q : Char → Bool} (hq : q '"' = true) (hc : q '^' = true) (hp : q '%' = true) (he : q '!' = true)
    {x a : List Char} (h : Written q x a) : ReadsAs x a := by
  intro c w tail hw ht
  rw [nextParam_written hq hc c.ex hw h ht]
  have := delayedExpand_escape c.delayed c.loops c.mods c.getv hc hp he a
  unfold Ctx.ex
  rw [this]; rfl

theorem kept_line {q : Char → Bool} (hq : q '"' = true) (hc : q '^' = true) (hp : q '%' = true) (he : q '!' = true)
    {line : List Char} {as : List (List Char)} (h : ParamLine q line as) : Kept line as := by
  induction h with
  | none hw => exact .nil hw
  | @last w x a hw hx =>
    have := Kept.cons (t := []) hw (readsAs_written hq hc hp he hx) (.inl rfl) (.nil (by simp))
    simpa using this
  | @cons w x a b rest as hw hx hb _ ih =>
    have hk : Kept (b :: rest) as := by
      cases ih with
      | nil hw => exact .nil (by intro d hd; rcases List.mem_cons.1 hd with rfl | hd; exact hb; exact hw d hd)
      | cons hw hx hs ht =>
        rw [← List.cons_append]
        exact .cons (by intro d hd; rcases List.mem_cons.1 hd with rfl | hd; exact hb; exact hw d hd) hx hs ht
    have := Kept.cons (t := b :: rest) hw (readsAs_written hq hc hp he hx) (.inr ⟨b, rest, rfl, hb⟩) hk
    simpa using this

/-- The arguments a `CALL` sets up. -/
theorem callArgs_holds (c : Ctx) {zero line all : List Char} {as : List (List Char)} (h : Kept line as)
    (hall : c.ex line = .ok all) (hp : ∀ a ∈ as.drop 9, Passable a) :
    ∃ b, callArgs c.ex zero line = .ok b ∧ HoldsArgs b (zero :: as) ∧ b '*' = some all := by
  have hl0 : localName '0' = true := by decide
  have hls : localName '*' = true := by decide
  unfold callArgs
  rw [hall]
  simp only [Res.ok_bind]
  generalize hb0 : setLocalVar (setLocalVar (fun _ => none) '0' (some zero)) '*' (some all) = b0
  have h00 : b0 (argName 0) = some zero := by
    rw [← hb0]; simp [setLocalVar, hl0, hls, show argName 0 = '0' from rfl]
  have h0s : b0 '*' = some all := by rw [← hb0]; simp [setLocalVar, hls]
  have hstar : OtherVar '*' := by
    have : ∀ i < 10, '*' ≠ argName i := by decide
    exact this
  obtain ⟨b', r, e1, e2, e3, e4, e5, e6⟩ := fillArgs_kept c b0 1 (by omega) h
  rw [e1]
  simp only [Res.ok_bind]
  have hzero : b' (argName 0) = some zero := by rw [e4 0 (by omega) (by omega), h00]
  have hval : ∀ n, n < 10 → n < 1 + as.length → b' (argName n) = some ((zero :: as).getD n []) := by
    intro n hn hlt
    cases n with
    | zero => exact hzero
    | succ n => rw [e5 (n + 1) hn (by omega) (by omega)]; simp
  by_cases hshort : min 10 (1 + as.length) < 10
  · rw [if_pos hshort]
    obtain ⟨g1, g2, g3⟩ := emptyArgs_spec b' (min 10 (1 + as.length))
    refine ⟨_, rfl, ⟨?_, [], by rw [setPlus, if_pos rfl], ?_⟩, ?_⟩
    · intro n hn
      show setLocalVar _ _ _ (argName n) = _
      rw [setPlus, if_neg (argName_ne_plus hn)]
      by_cases hlt : n < min 10 (1 + as.length)
      · rw [g2 n hn hlt, hval n hn (by omega)]
      · rw [g1 n hn (by omega), List.getD_eq_getElem?_getD, List.getElem?_eq_none (by simp; omega)]; rfl
    · rw [List.drop_eq_nil_of_le (by simp; omega)]; exact .nil (by simp)
    · rw [setPlus, if_neg (by decide), g3 _ hstar, e6 _ hstar, h0s]
  · rw [if_neg hshort]
    cases r with
    | none => have := e2.2 rfl; omega
    | some r =>
      have hk := e3 r rfl
      obtain ⟨t, ht, hkt⟩ := escapeArgs_kept (as.drop 9) hp
      simp only [allParams_kept c hk, ht, Res.ok_bind, Res.pure_eq]
      refine ⟨_, rfl, ⟨?_, t, by rw [setPlus, if_pos rfl], by simpa using hkt⟩, ?_⟩
      · intro n hn
        show setLocalVar _ _ _ (argName n) = _
        rw [setPlus, if_neg (argName_ne_plus hn)]
        exact hval n hn (by omega)
      · rw [setPlus, if_neg (by decide), e6 _ hstar, h0s]

theorem setArgs_spec (b : LocalBlock) (i : Nat) (hi : i ≤ 10) (as : List (List Char)) :
    (setArgs b i as).2.1 = min 10 (i + as.length) ∧ (setArgs b i as).2.2 = as.drop (10 - i) ∧
    (∀ n, n < 10 → n < i → (setArgs b i as).1 (argName n) = b (argName n)) ∧
    (∀ n, n < 10 → i ≤ n → n < i + as.length → (setArgs b i as).1 (argName n) = some (as.getD (n - i) [])) ∧
    (∀ x, OtherVar x → (setArgs b i as).1 x = b x) := by
  induction as generalizing b i with
  | nil =>
    refine ⟨by simp only [setArgs, List.length_nil]; omega, by simp [setArgs], by intros; rfl, ?_, by intros; rfl⟩
    intro n h1 h2 h3; simp at h3; omega
  | cons a as ih =>
    simp only [setArgs]
    by_cases h : i < 10
    · rw [if_pos h]
      obtain ⟨e1, e2, e3, e4, e5⟩ := ih (setLocalVar b (argName i) (some a)) (i + 1) (by omega)
      refine ⟨by rw [e1, List.length_cons]; omega, ?_, ?_, ?_, ?_⟩
      · rw [e2]
        have : 10 - i = (10 - (i + 1)) + 1 := by omega
        rw [this, List.drop_succ_cons]
      · intro n h1 h2
        rw [e3 n h1 (by omega), setLocalVar_other h h1 (by omega)]
      · intro n h1 h2 h3
        simp only [List.length_cons] at h3
        by_cases hn : n = i
        · subst hn
          rw [e3 n h1 (by omega), setLocalVar_same h]; simp
        · rw [e4 n h1 (by omega) (by omega)]
          have : n - i = (n - (i + 1)) + 1 := by omega
          rw [this, List.getD_cons_succ]
      · intro x hx
        rw [e5 x hx, setLocalVar_otherVar h _ hx]
    · rw [if_neg h]
      have : i = 10 := by omega
      subst this
      refine ⟨by simp, by simp, by intros; rfl, by intro n h1 h2; omega, by intros; rfl⟩

/-! ### Options -/

theorem oneDigit_name {n : Nat} (h : n < 10) (r : List Char) : oneDigit (Char.ofNat (48 + n) :: r) = some (n, r) := by
  have : ∀ n < 10, (('0' ≤ Char.ofNat (48 + n) && Char.ofNat (48 + n) ≤ '9') = true) ∧
      (Char.ofNat (48 + n)).toNat - 48 = n := by decide
  obtain ⟨h1, h2⟩ := this n h
  simp only [oneDigit, h1, if_true, h2]

theorem shiftDigit_name {n : Nat} (h : n < 10) : shiftDigit [Char.ofNat (48 + n)] = some n := by
  have : ∀ n < 10, shiftDigit [Char.ofNat (48 + n)] = some n := by decide
  exact this n h

theorem shiftDigit_colon {n : Nat} (h : n < 10) : shiftDigit [':', Char.ofNat (48 + n)] = some n := by
  have : ∀ n < 10, shiftDigit [':', Char.ofNat (48 + n)] = some n := by decide
  exact this n h

theorem shiftOpt_word {w : List Char} {o : ShiftOption} (h : ShiftWord w o) (i d : Nat) :
    shiftOpt i d w = some (settings (i, d) [o]) := by
  cases h with
  | @plain n c hn h7 hc =>
    subst hc
    have : ∀ n < 10, n ≠ 7 → ['0', '1', '2', '3', '4', '5', '6', '8', '9'].contains (Char.ofNat (48 + n)) = true ∧
        (Char.ofNat (48 + n)).toNat - 48 = n := by decide
    obtain ⟨h1, h2⟩ := this n hn h7
    simp only [shiftOpt, h1, if_true, h2, settings]
  | start hn hc =>
    subst hc
    simp only [shiftOpt, settings]
    rw [if_neg (by decide), if_pos trivial, shiftDigit_name hn]; rfl
  | startColon hn hc =>
    subst hc
    simp only [shiftOpt, settings]
    rw [if_neg (by decide), if_pos trivial, shiftDigit_colon hn]; rfl
  | step hn hc =>
    subst hc
    simp only [shiftOpt, settings]
    rw [if_neg (by decide), if_neg (by decide), if_pos trivial, shiftDigit_name hn]; rfl
  | stepColon hn hc =>
    subst hc
    simp only [shiftOpt, settings]
    rw [if_neg (by decide), if_neg (by decide), if_pos trivial, shiftDigit_colon hn]; rfl

theorem settings_cons (s : Nat × Nat) (o : ShiftOption) (os : List ShiftOption) :
    settings s (o :: os) = settings (settings s [o]) os := by
  cases o <;> rfl

theorem shiftOpts_words (c : Ctx) {line : List Char} {ws : List (List Char)} {os : List ShiftOption} (h : Kept line ws)
    (hw : ShiftWords ws os) (i d : Nat) : shiftOpts c.ex i d line = .ok (some (settings (i, d) os)) := by
  induction hw generalizing line i d with
  | nil =>
    rcases kept_next c h with ⟨-, hn⟩ | ⟨a, as', t', e, -⟩
    · rw [shiftOpts.eq_1, hn]; rfl
    · exact absurd e (by simp)
  | cons ho _ ih =>
    rcases kept_next c h with ⟨e, -⟩ | ⟨a', as', t', e, hn, hk, hl⟩
    · exact absurd e (by simp)
    · injection e with e1 e2
      subst e1; subst e2
      rw [shiftOpts.eq_1, hn]
      simp only
      rw [shiftOpt_word ho]
      simp only
      rw [if_pos hl, ih hk]
      exact congrArg (fun x => Res.ok (some x)) (settings_cons _ _ _).symm

end PBat
