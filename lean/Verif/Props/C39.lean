import Verif.Model.Exit
import Verif.Lemmas.Num
import Verif.Lemmas.If
import Verif.Lemmas.IfExp
import Verif.Props.C46
/-
C39: EXIT reports the requested code.
-/
namespace PBat.Spec

/-- Integers written in decimal, with an optional sign. -/
inductive DecInt : List Char → Int → Prop
  | plain {ds} : ds ≠ [] → (∀ d ∈ ds, d ∈ "0123456789".toList) → DecInt ds (valueIn 10 ds)
  | plus {ds} : ds ≠ [] → (∀ d ∈ ds, d ∈ "0123456789".toList) → DecInt ('+' :: ds) (valueIn 10 ds)
  | minus {ds} : ds ≠ [] → (∀ d ∈ ds, d ∈ "0123456789".toList) → DecInt ('-' :: ds) (-(valueIn 10 ds : Int))

end PBat.Spec

namespace PBat
open Spec

theorem scan_dec {ds : List Char} (h : ∀ d ∈ ds, d ∈ "0123456789".toList) : (scanBase 10 0 ds).1 = valueIn 10 ds := by
  have := scanBase_all (b := 10) ds (fun c hc => (digit_dec c (h c hc)).1) [] (fun c hc => by cases hc) 0
  rw [List.append_nil] at this
  rw [this, foldl_congr_digits ds (fun c hc => (digit_dec c (h c hc)).2)]
  rfl

theorem strtol10_dec {t : List Char} {v : Int} (h : DecInt t v) : strtol10 t = v := by
  unfold strtol10
  cases h with
  | plain hne hd =>
    obtain ⟨c, r, rfl⟩ := List.exists_cons_of_ne_nil hne
    obtain ⟨h1, h2, h3⟩ := digit_plain c (hd c (by simp))
    rw [List.dropWhile_cons, h1]
    simp only [Bool.false_eq_true, ↓reduceIte]
    split
    · next h => exact absurd (List.cons.inj h).1 h2
    · next h => exact absurd (List.cons.inj h).1 h3
    · rw [scan_dec hd]
  | plus hne hd =>
    have : isSpace '+' = false := by decide
    rw [List.dropWhile_cons, this]
    simp only [Bool.false_eq_true, ↓reduceIte]
    rw [scan_dec hd]
  | minus hne hd =>
    have : isSpace '-' = false := by decide
    rw [List.dropWhile_cons, this]
    simp only [Bool.false_eq_true, ↓reduceIte]
    rw [scan_dec hd]

theorem atoi_dec {t : List Char} {v : Int} (h : DecInt t v) (h1 : -2 ^ 31 ≤ v) (h2 : v < 2 ^ 31) : atoi t = v := by
  unfold atoi
  rw [strtol10_dec h, show max (-2 ^ 63) (min (2 ^ 63 - 1) v) = v by omega, longToInt_id h1 h2]

/-- The option of EXIT that leaves the level only. -/
def LevelOption (b : List Char) : Prop := fold b = "/b".toList

/-- `EXIT /B n` leaves the level with the code n, for every integer of 32 bits however it is written, if nothing follows it.
-/
theorem C39_level_partial {q : Char → Bool} (hq : q '"' = true) (hqc : q '^' = true) (ex : List Char → Res (List Char))
    (err : Int) {line b t : List Char} {v : Int} (hb : LevelOption b) (ht : DecInt t v) (h1 : -2 ^ 31 ≤ v) (h2 : v < 2 ^ 31)
    (h : ParamPrefix q line [b, t] []) (hex : ex (escape q b) = .ok b) (hex' : ex (escape q t) = .ok t) :
    cmdExit ex err line = .ok (.level v) := by
  obtain ⟨r, hr, -, hp⟩ := nextParam_prefix hq hqc ex h hex
  obtain ⟨r', hr', he, -⟩ := nextParam_prefix hq hqc ex (hp (by simp)) hex'
  rw [cmdExit, hr]
  simp only [Res.bind]
  have hs : ¬ stricmp b "/?".toList = 0 := by
    rw [stricmp_zero, hb]; decide
  rw [if_neg hs, if_pos ((stricmp_zero _ _).2 (hb.trans (by decide))), hr', he rfl]
  simp only [Res.bind]
  rw [atoi_dec ht h1 h2]

/-- `EXIT /B` leaves the level with the present error level. -/
theorem C39_level_default {q : Char → Bool} (hq : q '"' = true) (hqc : q '^' = true) (ex : List Char → Res (List Char))
    (err : Int) {line rest b : List Char} (hb : LevelOption b) (h : ParamPrefix q line [b] rest)
    (hrest : ∀ c ∈ rest, Blank c) (hex : ex (escape q b) = .ok b) : cmdExit ex err line = .ok (.level err) := by
  obtain ⟨r, hr, he, -⟩ := nextParam_prefix hq hqc ex h hex
  rw [cmdExit, hr]
  simp only [Res.bind]
  have hs : ¬ stricmp b "/?".toList = 0 := by
    rw [stricmp_zero, hb]; decide
  rw [if_neg hs, if_pos ((stricmp_zero _ _).2 (hb.trans (by decide))), he rfl, nextParam_nil _ _ _ (skipBlanks_all hrest)]

/-- `EXIT` ends the program with the present error level. -/
theorem C39_process_default (ex : List Char → Res (List Char)) (err : Int) {line : List Char} (h : ∀ c ∈ line, Blank c) :
    cmdExit ex err line = .ok (.process err) := by
  rw [cmdExit, nextParam_nil _ _ _ (skipBlanks_all h)]
  rfl

/-- The claim is false for `EXIT n`: whatever n is, the program ends with the code 0. -/
theorem C39_process_zero {q : Char → Bool} (hq : q '"' = true) (hqc : q '^' = true) (ex : List Char → Res (List Char))
    (err : Int) {line t : List Char} {v : Int} (ht : DecInt t v)
    (h : ParamPrefix q line [t] []) (hex : ex (escape q t) = .ok t) :
    cmdExit ex err line = .ok (.process 0) := by
  obtain ⟨r, hr, he, -⟩ := nextParam_prefix hq hqc ex h hex
  have hn : ∀ x : List Char, fold t ≠ '/' :: x := by
    intro x hx
    have key : ∀ d ∈ "0123456789".toList, d.toLower ≠ '/' := by decide
    cases ht with
    | plain hne hd =>
      obtain ⟨c, r, rfl⟩ := List.exists_cons_of_ne_nil hne
      exact key c (hd c (by simp)) (List.cons.inj hx).1
    | plus hne hd => exact absurd (List.cons.inj hx).1 (by decide)
    | minus hne hd => exact absurd (List.cons.inj hx).1 (by decide)
  rw [cmdExit, hr]
  simp only [Res.bind]
  rw [if_neg (by rw [stricmp_zero]; exact hn _), if_neg (by rw [stricmp_zero]; exact hn _), he rfl]
  rfl

/-- It is the argument after the first one that is taken: `EXIT x n` ends the program with the code n. -/
theorem C39_process_second {q : Char → Bool} (hq : q '"' = true) (hqc : q '^' = true) (ex : List Char → Res (List Char))
    (err : Int) {line t u : List Char} {v w : Int} (ht : DecInt t v) (hu : DecInt u w) (h1 : -2 ^ 31 ≤ w) (h2 : w < 2 ^ 31)
    (h : ParamPrefix q line [t] (' ' :: u)) (hex : ex (escape q t) = .ok t) :
    cmdExit ex err line = .ok (.process w) := by
  obtain ⟨r, hr, he, -⟩ := nextParam_prefix hq hqc ex h hex
  have hn : ∀ x : List Char, fold t ≠ '/' :: x := by
    intro x hx
    have key : ∀ d ∈ "0123456789".toList, d.toLower ≠ '/' := by decide
    cases ht with
    | plain hne hd =>
      obtain ⟨c, r, rfl⟩ := List.exists_cons_of_ne_nil hne
      exact key c (hd c (by simp)) (List.cons.inj hx).1
    | plus hne hd => exact absurd (List.cons.inj hx).1 (by decide)
    | minus hne hd => exact absurd (List.cons.inj hx).1 (by decide)
  rw [cmdExit, hr]
  simp only [Res.bind]
  rw [if_neg (by rw [stricmp_zero]; exact hn _), if_neg (by rw [stricmp_zero]; exact hn _), he rfl]
  have : strtol10 (' ' :: u) = strtol10 u := by
    unfold strtol10
    rw [List.dropWhile_cons, show isSpace ' ' = true from rfl, if_pos rfl]
  have h3 : atoi (' ' :: u) = w := by
    rw [← atoi_dec hu h1 h2, atoi, this, ← atoi]
  rw [h3]

/-- The claim is false for `EXIT /B n` when anything follows n, were it only the blank before `&` or `)`: the level is not
left. -/
theorem C39_level_trailing {q : Char → Bool} (hq : q '"' = true) (hqc : q '^' = true) (ex : List Char → Res (List Char))
    (err : Int) {line b t rest : List Char} (hb : LevelOption b) (hrest : rest ≠ [])
    (h : ParamPrefix q line [b, t] rest) (hex : ex (escape q b) = .ok b) (hex' : ex (escape q t) = .ok t) :
    cmdExit ex err line = .ok (.refused 4) := by
  obtain ⟨r, hr, -, hp⟩ := nextParam_prefix hq hqc ex h hex
  obtain ⟨r', hr', he, -⟩ := nextParam_prefix hq hqc ex (hp (by simp)) hex'
  obtain ⟨c, s, rfl⟩ := List.exists_cons_of_ne_nil hrest
  rw [cmdExit, hr]
  simp only [Res.bind]
  have hs : ¬ stricmp b "/?".toList = 0 := by
    rw [stricmp_zero, hb]; decide
  rw [if_neg hs, if_pos ((stricmp_zero _ _).2 (hb.trans (by decide))), hr', he rfl]

/-- A line with one command. -/
theorem runLine_one {ι ν W τ : Type} (sys : Sys ι ν W τ) (k : Nat) (ty : NodeType) (c : Cmd ι ν) (hc : c.look = false)
    (st : St W τ) (hty : skips ty st.err = false) (ha : st.abort = .no) {after : List (Node ι ν)} {st2 : St W τ}
    (h : runCmd sys k (ty, {}, c) [] { st with io := st.io.setLock true } = some (after, true, st2)) :
    ∃ nodes, runLine sys (k + 1) [(ty, {}, c)] st = some (nodes, closeLine st.io.lockState st2) := by
  rw [runLine, runNodes]
  have he : ∀ s : St W τ, execOutput sys {} s = s := fun s => rfl
  simp only [hty, hc, launch, Bool.not_false, Bool.and_self, ↓reduceIte, pipeLoop, ha, he, h, Bool.false_or, ne_eq,
    not_true_eq_false, decide_false, Bool.false_eq_true, Bool.not_true, Bool.or_false]
  rw [ha] at h
  simp only [h, Bool.not_true, Bool.false_eq_true, ↓reduceIte]
  rw [runNodes]
  exact ⟨_, rfl⟩

/-- Leaving a level with the code n: in a called script, a line `EXIT /B n` ends the script, and the caller goes on with the
error level n. -/
theorem C39_returns {ι ν W τ : Type} (sys : Sys ι ν W τ) (k : Nat) (ty : NodeType) (i x : ι) (st : St W τ) (n : Int)
    (w1 w2 w3 : W) (ha : st.abort = .no) (hty : skips ty st.err = false) (henter : sys.enter i st.world = .ok w1)
    (hfetch : sys.fetch w1 = some ([(.none, {}, .simple x)], w2)) (hexec : ∀ e s, sys.exec x w2 e s = (w3, n, .level)) :
    ∃ nodes st', runLine sys (k + 5) [(ty, {}, .call i)] st = some (nodes, st') ∧ st'.err = n ∧ st'.abort = .no ∧
      st'.world = sys.leave st.world w3 := by
  have hline : ∀ s : St W τ, s.world = w2 → s.abort = .no → ∃ nodes s', runLine sys (k + 2) [(.none, {}, .simple x)] s =
      some (nodes, s') ∧ s'.err = n ∧ s'.abort = .level ∧ s'.world = w3 := by
    intro s hw hs
    have h1 : runCmd sys (k + 1) (.none, {}, .simple x) [] { s with io := s.io.setLock true } =
        some ([(.none, {}, .simple x)], true, { s with world := w3, err := n, abort := .level, io := s.io.setLock true }) := by
      rw [runCmd]
      simp only [hw, hexec]
    obtain ⟨nodes, h2⟩ := runLine_one sys (k + 1) .none (.simple x) rfl s rfl hs h1
    exact ⟨nodes, _, h2, rfl, rfl, rfl⟩
  have hbatch : ∀ s : St W τ, s.world = w1 → s.abort = .no → ∃ s', runBatch sys (k + 3) s = some s' ∧ s'.err = n ∧
      s'.world = w3 := by
    intro s hw hs
    obtain ⟨nodes, s', h1, h2, h3, h4⟩ := hline { s with world := w2 } rfl hs
    exact ⟨s', C46_level sys (k + 2) _ nodes w2 s s' (by rw [hw]; exact hfetch) h1 h3, h2, h4⟩
  obtain ⟨s', h1, h2, h3⟩ := hbatch { st with world := w1, io := (st.io.setLock true).setLock true } rfl ha
  have h4 : runCmd sys (k + 4) (ty, {}, .call i) [] { st with io := st.io.setLock true } = some ([(ty, {}, .call i)], true,
      { s' with abort := .no, io := s'.io.setLock (st.io.setLock true).lockState, world := sys.leave st.world s'.world }) := by
    rw [runCmd]
    simp only [henter, h1]
  obtain ⟨nodes, h5⟩ := runLine_one sys (k + 4) ty (.call i) rfl st hty ha h4
  exact ⟨nodes, _, h5, h2, rfl, by rw [← h3]; rfl⟩

/-- A system whose commands are the arguments of EXIT; the world is the number of lines left in the called script, all of
which are `EXIT /B -7`. -/
def exitSys : Sys (List Char) Unit Nat Nat where
  exec i w e _ := match cmdExit .ok e i with
    | .ok (.level n) => (w, n, .level)
    | .ok (.refused n) => (w, n, .no)
    | _ => (w, e, .no)
  test _ _ _ := .no
  setVar _ w := w
  openFile _ _ w := (w, none)
  pipe w := (w, 0)
  spawn _ _ _ _ _ w := w
  enter _ _ := .ok 5
  leave _ w := w
  fetch w := if w = 0 then none else some ([(.none, {}, .simple " /B -7".toList)], w - 1)

/-- The hypotheses of `C39_returns` are met: the call ends after the first of the five lines. -/
example : ∃ nodes st', runLine exitSys 7 [(.none, {}, .call [])] ⟨9, 0, .no, ⟨0, 1, 2, true, false, []⟩⟩ = some (nodes, st') ∧
    st'.err = -7 ∧ st'.abort = .no ∧ st'.world = 4 :=
  C39_returns exitSys 2 .none [] " /B -7".toList _ (-7) 5 4 4 rfl rfl rfl rfl (fun e s => by
    have : cmdExit .ok e " /B -7".toList = .ok (.level (-7)) :=
      C39_level_partial (q := fun c => c = '"' ∨ c = '^') rfl rfl _ _ (b := "/B".toList) (t := "-7".toList) rfl
        (.minus (ds := ['7']) (by decide) (by decide)) (by decide) (by decide)
        (.cons (w := [' ']) (x := "/B".toList) (b := ' ') (r := "-7".toList) (by decide) (.word (by decide) (by decide) (by decide) (by decide)) (by decide)
          (.last (w := [' ']) (x := "-7".toList) (rest := []) (by decide) (.word (by decide) (by decide) (by decide) (by decide))
            (.inl rfl))) rfl rfl
    simp only [exitSys, this])

/-- `EXIT /b  -12`. -/
example : cmdExit .ok 3 " /b  -12".toList = .ok (.level (-12)) := by decide +kernel
example : cmdExit .ok 3 " /B".toList = .ok (.level 3) := by decide +kernel
example : cmdExit .ok 3 " 5".toList = .ok (.process 0) := by decide +kernel
example : cmdExit .ok 3 " 5 7".toList = .ok (.process 7) := by decide +kernel
example : cmdExit .ok 3 " /b 5 ".toList = .ok (.refused 4) := by decide +kernel

end PBat
