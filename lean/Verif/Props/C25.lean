import Verif.Props.C24
import Verif.Lemmas.Expand
/-
C25: loop variables do not outlive their loop.
-/
namespace PBat
open Spec

variable {σ : Type}

/-- Commands which leave the loop variables as they find them. -/
def LeavesVars (body : LocalBlock × σ → Res ((LocalBlock × σ) × Bool)) : Prop :=
  ∀ st r, body st = .ok r → r.1.1 = st.1

/-- The block with the variables `c`, `c+1`, ... (`n` of them) unassigned. -/
def without (b : LocalBlock) (c n : Nat) : LocalBlock := fun d => if c ≤ d.toNat ∧ d.toNat < c + n then none else b d

theorem setLocalVar_without (b : LocalBlock) (c : Char) (hc : localName c) (v : Option (List Char)) :
    without (setLocalVar b c v) c.toNat 1 = without b c.toNat 1 := by
  funext d
  unfold without
  split
  · rfl
  · next h =>
    unfold setLocalVar
    rw [if_pos hc, if_neg]
    rintro rfl
    omega

theorem setLocalVar_none (b : LocalBlock) (c : Char) (hc : localName c) : setLocalVar b c none = without b c.toNat 1 := by
  funext d
  unfold setLocalVar without
  rw [if_pos hc]
  by_cases h : d = c
  · subst h; simp
  · rw [if_neg h, if_neg]
    intro h2
    have : d.toNat = c.toNat := by omega
    have := congrArg Char.ofNat this
    rw [Char.ofNat_toNat, Char.ofNat_toNat] at this
    exact h this

theorem forSimpleLoop_vars (c : Char) (hc : localName c) (body : LocalBlock × σ → Res ((LocalBlock × σ) × Bool)) (hb : LeavesVars body) :
    ∀ (vs : List (List Char)) (st st' : LocalBlock × σ), forSimpleLoop c body vs st = .ok st' →
      without st'.1 c.toNat 1 = without st.1 c.toNat 1 := by
  intro vs
  induction vs with
  | nil => intro st st' h; rw [forSimpleLoop] at h; cases h; rfl
  | cons v vs ih =>
    intro st st' h
    rw [forSimpleLoop] at h
    cases hr : body (setLocalVar st.1 c (some v), st.2) with
    | ub => rw [hr] at h; cases h
    | hang => rw [hr] at h; cases h
    | ok r =>
      rw [hr] at h
      simp only [Res.ok_bind] at h
      have e := hb _ _ hr
      simp only at e
      split at h
      · simp only [Res.pure_eq, Res.ok.injEq] at h
        subst h
        rw [e, setLocalVar_without _ _ hc]
      · rw [ih _ _ h, e, setLocalVar_without _ _ hc]

/-- After a plain FOR loop, however it ends, its variable is unassigned and all others are as before. -/
theorem C25_simple (c : Char) (hc : localName c) (body : LocalBlock × σ → Res ((LocalBlock × σ) × Bool)) (hb : LeavesVars body)
    (vs : List (List Char)) (st st' : LocalBlock × σ) (h : forSimple c body vs st = .ok st') :
    st'.1 c = none ∧ ∀ d, d ≠ c → st'.1 d = st.1 d := by
  unfold forSimple at h
  obtain ⟨s1, h1, h2⟩ := res_bind_eq_ok.1 h
  simp only [Res.pure_eq, Res.ok.injEq] at h2
  subst h2
  have hv := forSimpleLoop_vars c hc body hb vs st s1 h1
  rw [← setLocalVar_none _ _ hc, ← setLocalVar_none _ _ hc] at hv
  simp only
  rw [hv]
  unfold setLocalVar
  rw [if_pos hc]
  exact ⟨by simp, fun d hd => by simp [hd]⟩

/-- The same for FOR /L. -/
theorem C25_l (c : Char) (hc : localName c) (body : LocalBlock × σ → Res ((LocalBlock × σ) × Bool)) (hb : LeavesVars body)
    (fuel : Nat) (params : List (List Char)) (st st' : LocalBlock × σ) (hp : forLBounds params ≠ none)
    (h : forLCmd c body fuel params st = .ok st') : st'.1 c = none ∧ ∀ d, d ≠ c → st'.1 d = st.1 d := by
  have key : ∀ (inc stop : Int) (fuel : Nat) (i : Int) (st st' : LocalBlock × σ),
      forLLoop (fun v st => body (setLocalVar st.1 c (some v), st.2)) inc stop fuel i st = .ok st' →
      setLocalVar st'.1 c none = setLocalVar st.1 c none := by
    intro inc stop fuel
    induction fuel with
    | zero => intro i st st' h; cases h
    | succ fuel ih =>
      intro i st st' h
      rw [forLLoop] at h
      split at h
      · cases hr : body (setLocalVar st.1 c (some (intText i)), st.2) with
        | ub => rw [hr] at h; cases h
        | hang => rw [hr] at h; cases h
        | ok r =>
          rw [hr] at h
          simp only [Res.ok_bind] at h
          have e := hb _ _ hr
          simp only at e
          have e2 : setLocalVar r.1.1 c none = setLocalVar st.1 c none := by
            rw [e, setLocalVar_none _ _ hc, setLocalVar_without _ _ hc, setLocalVar_none _ _ hc]
          split at h
          · simp only [Res.pure_eq, Res.ok.injEq] at h
            subst h
            exact e2
          · split at h
            · rw [ih _ _ _ h, e2]
            · cases h
      · cases h
        rfl
  unfold forLCmd forL at h
  cases hbd : forLBounds params with
  | none => exact absurd hbd hp
  | some x =>
    rw [hbd] at h
    obtain ⟨start, inc, stop⟩ := x
    simp only [Option.map_some] at h
    obtain ⟨s1, h1, h2⟩ := res_bind_eq_ok.1 h
    simp only [Res.pure_eq, Res.ok.injEq] at h2
    subst h2
    have hv := key _ _ _ _ _ _ h1
    simp only
    rw [hv]
    unfold setLocalVar
    rw [if_pos hc]
    exact ⟨by simp, fun d hd => by simp [hd]⟩

/-- Loops may therefore be nested: a loop whose variable is free leaves the loop variables as it finds them. -/
theorem C25_nested (c : Char) (hc : localName c) (body : LocalBlock × σ → Res ((LocalBlock × σ) × Bool)) (hb : LeavesVars body)
    (vs : List (List Char)) (st st' : LocalBlock × σ) (hfree : st.1 c = none) (h : forSimple c body vs st = .ok st') :
    st'.1 = st.1 := by
  obtain ⟨h1, h2⟩ := C25_simple c hc body hb vs st st' h
  funext d
  by_cases hd : d = c
  · subst hd; rw [h1, hfree]
  · exact h2 d hd

theorem forUnassign_without : ∀ (n c : Nat) (b : LocalBlock), 0x20 < c → c + n ≤ 0x80 → forUnassign b c n = without b c n := by
  intro n
  induction n with
  | zero =>
    intro c b _ _
    funext d
    unfold forUnassign without
    rw [if_neg (by omega)]
  | succ n ih =>
    intro c b h0 h1
    have hk : (Char.ofNat c).toNat = c := by
      have key : ∀ k : Fin 128, (Char.ofNat k).toNat = k := by decide +kernel
      exact key ⟨c, by omega⟩
    have hl : localName (Char.ofNat c) := by
      unfold localName
      rw [hk]
      simp
      omega
    rw [forUnassign]
    have i1 : ¬ c / 128 % 2 = 1 := by omega
    have i2 : c < 128 := by omega
    simp only [i1, i2, if_true, if_false]
    by_cases hn : n = 0
    · subst hn
      rw [forUnassign, setLocalVar_none _ _ hl, hk]
    · rw [ih _ _ (by omega) (by omega), setLocalVar_none _ _ hl, hk]
      funext d
      unfold without
      by_cases ha : c + 1 ≤ d.toNat ∧ d.toNat < c + 1 + n
      · rw [if_pos ha, if_pos (by omega)]
      · rw [if_neg ha]
        by_cases hb : c ≤ d.toNat ∧ d.toNat < c + 1
        · rw [if_pos hb, if_pos (by omega)]
        · rw [if_neg hb, if_neg (by omega)]

theorem forFLoop_vars (info : ForInfo) (hc : 0x20 < info.var.toNat) (hc2 : info.var.toNat + info.tokens.length ≤ 0x80)
    (body : LocalBlock × σ → Res ((LocalBlock × σ) × Bool)) (hb : LeavesVars body) :
    ∀ (ls : List (List Char)) (skip : Int) (st st' : LocalBlock × σ), forFLoop info body skip ls st = .ok st' →
      without st'.1 info.var.toNat info.tokens.length = without st.1 info.var.toNat info.tokens.length := by
  intro ls
  induction ls with
  | nil => intro skip st st' h; rw [forFLoop] at h; cases h; rfl
  | cons l ls ih =>
    intro skip st st' h
    rw [forFLoop] at h
    split at h
    · exact ih _ _ _ h
    · split at h
      · exact ih _ _ _ h
      · cases hr : body (forSplitTokens info.delims l info.tokens info.var st.1, st.2) with
        | ub => rw [hr] at h; cases h
        | hang => rw [hr] at h; cases h
        | ok r =>
          rw [hr] at h
          simp only [Res.ok_bind] at h
          have e := hb _ _ hr
          simp only at e
          have e2 : without r.1.1 info.var.toNat info.tokens.length = without st.1 info.var.toNat info.tokens.length := by
            rw [e]
            funext d
            unfold without
            split
            · rfl
            · exact (forSplitTokens_vars info.delims l info.tokens info.var st.1 hc hc2).2 d (by omega)
          split at h
          · simp only [Res.pure_eq, Res.ok.injEq] at h
            subst h
            exact e2
          · rw [ih _ _ _ h, e2]

/-- After FOR /F, however it ends, its variables are unassigned and all others as before, if the variable names do not run
beyond the last one (`\x7F`). -/
theorem C25_f_partial (info : ForInfo) (hc : 0x20 < info.var.toNat) (hc2 : info.var.toNat + info.tokens.length ≤ 0x80)
    (body : LocalBlock × σ → Res ((LocalBlock × σ) × Bool)) (hb : LeavesVars body) (ls : List (List Char))
    (st st' : LocalBlock × σ) (h : forF info body ls st = some (.ok st')) (d : Char) :
    st'.1 d = if info.var.toNat ≤ d.toNat ∧ d.toNat < info.var.toNat + info.tokens.length then none else st.1 d := by
  unfold forF at h
  split at h
  · cases h
  · simp only [Option.some.injEq] at h
    obtain ⟨s1, h1, h2⟩ := res_bind_eq_ok.1 h
    simp only [Res.pure_eq, Res.ok.injEq] at h2
    subst h2
    simp only
    rw [forUnassign_without _ _ _ hc hc2, forFLoop_vars info hc hc2 body hb ls _ st s1 h1]
    rfl

/-- The first variable of FOR /F being in use, nothing is done. -/
theorem C25_f_in_use (info : ForInfo) (hc : localName info.var) (ht : info.tokens ≠ [])
    (body : LocalBlock × σ → Res ((LocalBlock × σ) × Bool)) (ls : List (List Char)) (st : LocalBlock × σ) :
    forF info body ls st = none ↔ st.1 info.var ≠ none := by
  unfold forF
  rw [← Option.isSome_iff_ne_none]
  split
  · next h => simp [h.2.2]
  · next h => simp only [reduceCtorEq, false_iff]; intro h2; exact h ⟨ht, hc, h2⟩

/-- The claim fails when the names wrap: three tokens from `%~` on leave `%!` assigned. -/
theorem C25_f_wrap_leaks : ∃ st', forF (σ := Unit) ⟨" ".toList, ";".toList, 0, '~', [tokenWord 1 1, tokenWord 2 2, tokenWord 3 3]⟩
    (fun st => .ok (st, false)) ["a b c".toList] (fun _ => none, ()) = some (.ok st') ∧ st'.1 '!' = some "c".toList := by
  refine ⟨_, rfl, ?_⟩
  decide +kernel

/-- It also fails for further variables already in use: FOR /F over an empty input unassigns a variable of an outer loop, which it
never assigned. -/
theorem C25_f_outer_lost (b : LocalBlock) (hb : b 'a' = none) (v : List Char) (hv : b 'b' = some v) :
    ∃ st', forF (σ := Unit) ⟨" ".toList, ";".toList, 0, 'a', [tokenWord 1 1, tokenWord 2 2]⟩
      (fun st => .ok (st, false)) [] (b, ()) = some (.ok st') ∧ st'.1 'b' = none := by
  refine ⟨(forUnassign b 'a'.toNat 2, ()), ?_, ?_⟩
  · unfold forF
    rw [if_neg (by simp [hb])]
    rfl
  · show forUnassign b 'a'.toNat 2 'b' = none
    rw [forUnassign_without 2 _ b (by decide) (by decide)]
    unfold without
    rw [if_pos (by decide)]

/-- The variables of `tokens=1,2` from `%a` on, for two lines, are gone afterwards. -/
example : ∀ st', forF (σ := List (Option (List Char) × Option (List Char)))
    ⟨" ".toList, ";".toList, 0, 'a', [tokenWord 1 1, tokenWord 2 2]⟩
    (fun st => .ok ((st.1, st.2 ++ [(st.1 'a', st.1 'b')]), false)) ["x y".toList, "u v".toList] (fun _ => none, []) = some (.ok st') →
      st'.1 'b' = none := by
  intro st' h
  have := C25_f_partial _ (by decide) (by decide) _ (fun st r hr => by cases hr; rfl) _ _ _ h 'b'
  simpa using this

end PBat
