import Verif.Lemmas.ForLine
import Verif.Props.C70
import Verif.Lemmas.Echo
/-
C72: a FOR line is read as written.
-/
namespace PBat
open Spec

/-- Reading the first parameter and going on with the options. -/
def forStart (δ : ForLoop → List Char → Res ForOut) (ex : List Char → Res (List Char)) (l : ForLoop) (s : List Char) : Res ForOut :=
  match nextParam stdDelims ex s with
  | .ok none => .ok .more
  | .ok (some (p, s')) => forParams δ ex l p s'
  | .ub => .ub
  | .hang => .hang

theorem forParams_step {ex : List Char → Res (List Char)} {l l' : ForLoop} {p s : List Char} (hp : p.head? ≠ some '%')
    (ho : forOption l p = .ok (.inl l')) : forParams δ ex l p s = forStart δ ex l' s := by
  rw [forParams.eq_1, if_neg hp, ho]
  unfold forStart
  cases h : nextParam stdDelims ex s with
  | ok r =>
    cases r with
    | none => rfl
    | some x => obtain ⟨p', s'⟩ := x; simp only; rw [if_pos (nextParam_rest_lt h)]
  | ub => rfl
  | hang => rfl

theorem forLine_start {ex : List Char → Res (List Char)} {k : ForKind} {s p s' : List Char}
    (h : nextParam stdDelims ex s = .ok (some (p, s'))) (hsw : forSwitch p = none) (hh : p ≠ ['/', '?']) :
    forLine δ ex k s = forStart δ ex ⟨k, forDefaults, [], ' ', [], []⟩ s := by
  rw [forLine.eq_1, h]
  unfold forStart
  simp only [hsw, if_neg hh, h]

theorem forSwitch_some {p : List Char} {k : ForKind} (h : SwitchName k p) : forSwitch p = some k := by
  have e : ∀ {a b : List Char}, stricmp a b = 0 ↔ fold a = fold b := fun {a b} => stricmp_zero
  unfold forSwitch
  simp only [e]
  cases h <;> next h => rw [h]; decide

theorem forSwitch_name {p : List Char} (h : ∀ j, ¬ SwitchName j p) : forSwitch p = none := by
  have e : ∀ {a b : List Char}, stricmp a b = 0 ↔ fold a = fold b := fun {a b} => stricmp_zero
  unfold forSwitch
  simp only [e]
  rw [if_neg, if_neg, if_neg, if_neg]
  · intro h'; exact h .d (.d h')
  · intro h'; exact h .r (.r h')
  · intro h'; exact h .l (.l h')
  · intro h'; exact h .f (.f h')

theorem forDoWord_text {q : Char → Bool} (hq : q '"' = true) (hc : q '^' = true) (hp : q '%' = true) (he : q '!' = true) (c : Ctx)
    {w xd d t : List Char} (l : ForLoop) (hw : ∀ x ∈ w, Blank x) (hx : Written q xd d) (hd : fold d = ['d', 'o']) (ht : Stops t) :
    forDoWord c.ex l (w ++ (xd ++ t)) = .ok (.run { l with code := t }) := by
  unfold forDoWord
  rw [readsAs_written hq hc hp he hx c w t hw ht]
  simp only [Res.ok_bind]
  have : stricmp d ['D', 'O'] = 0 := stricmp_zero.2 (by rw [hd]; rfl)
  rw [if_neg (fun h => h this)]

theorem forDo_text {q : Char → Bool} (hq : q '"' = true) (hc : q '^' = true) (hp : q '%' = true) (he : q '!' = true) (c : Ctx)
    {w xd d t code : List Char} (l : ForLoop) (hw : ∀ x ∈ w, Blank x) (hx : Written q xd d) (hd : fold d = ['d', 'o']) (ht : Stops t)
    (hcode : CodeText t code) :
    forDo c.ex l (w ++ (xd ++ t)) = .ok (.run { l with code := '(' :: (code ++ [')']) }) := by
  unfold forDo
  rw [forDoWord_text hq hc hp he c l hw hx hd ht]
  simp only [Res.ok_bind, forFinish]
  rw [forCode_text hcode]
  rfl

theorem forIn_text {q : Char → Bool} (hq : q '"' = true) (hc : q '^' = true) (hp : q '%' = true) (he : q '!' = true) (c : Ctx)
    {w xi i w3 set set' t : List Char} (l : ForLoop) (hw : ∀ x ∈ w, Blank x) (hx : Written q xi i) (hi : fold i = ['i', 'n'])
    (hw3 : ∀ x ∈ w3, x = ' ' ∨ x = '\t') (hne : w3 ≠ []) (hb : Body true set) (hset : c.ex set = .ok set') :
    forIn δ c.ex l (w ++ (xi ++ (w3 ++ '(' :: (set ++ ')' :: t)))) = δ { l with set := set' } t := by
  unfold forIn
  have hst : Stops (w3 ++ '(' :: (set ++ ')' :: t)) := by
    cases w3 with
    | nil => exact absurd rfl hne
    | cons b r =>
      refine .inr ⟨b, _, rfl, ?_⟩
      rcases hw3 b (by simp) with h | h
      · exact .inl h
      · exact .inr (.inl h)
  rw [readsAs_written hq hc hp he hx c w _ hw hst]
  simp only [Res.ok_bind]
  have : stricmp i ['I', 'N'] = 0 := stricmp_zero.2 (by rw [hi]; rfl)
  rw [if_neg (fun h => h this), skipTabs_block hw3, if_neg (by simp)]
  unfold nextBlockEs
  rw [nextBlock_body hb]
  simp only [Res.ok_bind, hset]

theorem read_var (c : Ctx) {v : Char} (hv : LoopName v) (hl : c.loops v = none) {w tail : List Char} (hw : ∀ x ∈ w, Blank x)
    (ht : Stops tail) : nextParam stdDelims c.ex (w ++ '%' :: v :: tail) = .ok (some (['%', v], tail)) := by
  have hv3 := hv.2.2
  simp only [List.mem_cons, List.not_mem_nil, or_false, not_or] at hv3
  have hx : Written (fun c => c == '"' || c == '^') ['%', v] ['%', v] := by
    refine .word (by simp) ?_ ?_ ?_
    · intro c hc
      simp only [List.mem_cons, List.not_mem_nil, or_false] at hc
      rcases hc with rfl | rfl
      · decide
      · exact hv.2.1
    · simp only [List.mem_cons, List.not_mem_nil, or_false, not_or]
      exact ⟨by decide, fun h => hv3.1 h.symm⟩
    · intro c hc
      simp only [List.mem_cons, List.not_mem_nil, or_false] at hc
      rcases hc with rfl | rfl
      · decide
      · simp [hv3.1, hv3.2.1]
  have := nextParam_written (by decide) (by decide) c.ex hw hx ht
  rw [escape_none (by
      intro c hc
      simp only [List.mem_cons, List.not_mem_nil, or_false] at hc
      rcases hc with rfl | rfl
      · decide
      · simp [hv3.1, hv3.2.1]), ex_var c hv hl] at this
  simpa using this

theorem forParams_var {ex : List Char → Res (List Char)} (l : ForLoop) {v : Char} (hv : LoopName v) (s : List Char) :
    forParams δ ex l ['%', v] s = forIn δ ex { l with var := v } s := by
  have hv3 := hv.2.2
  simp only [List.mem_cons, List.not_mem_nil, or_false, not_or] at hv3
  rw [forParams.eq_1, if_pos (by rfl)]
  have : forVar ['%', v] = some v := by
    unfold forVar
    simp [hv3.2.2.2, hv.1]
  rw [this]

theorem start_next {q : Char → Bool} (hq : q '"' = true) (hc : q '^' = true) (hp : q '%' = true) (he : q '!' = true) (c : Ctx)
    {line p t : List Char} {ps : List (List Char)} (h : Params q line (p :: ps) t) :
    ∃ s, nextParam stdDelims c.ex line = .ok (some (p, s)) ∧ Params q s ps t := by
  cases h with
  | cons hw hx ht hr => exact ⟨_, readsAs_written hq hc hp he hx c _ _ hw ht, hr⟩

theorem start_option {q : Char → Bool} (hq : q '"' = true) (hc : q '^' = true) (hp : q '%' = true) (he : q '!' = true) (c : Ctx)
    {line p t : List Char} {ps : List (List Char)} (h : Params q line (p :: ps) t) {l l' : ForLoop} (hh : p.head? ≠ some '%')
    (ho : forOption l p = .ok (.inl l')) : ∃ s, forStart δ c.ex l line = forStart δ c.ex l' s ∧ Params q s ps t := by
  obtain ⟨s, h1, h2⟩ := start_next hq hc hp he c h
  refine ⟨s, ?_, h2⟩
  unfold forStart
  rw [h1]
  simp only
  rw [forParams_step hh ho]
  rfl

/-- Reading the options of FOR /F. -/
def readOptions (ps : List (List Char)) : Option ForOpts :=
  match forAllOptions forDefaults ps with
  | .ok r => r
  | _ => none

theorem start_f {q : Char → Bool} (hq : q '"' = true) (hc : q '^' = true) (hp : q '%' = true) (he : q '!' = true) (c : Ctx)
    {t : List Char} : ∀ (ps : List (List Char)) (line : List Char) (l : ForLoop) (o : ForOpts), l.kind = .f → l.dir = [] →
    Params q line ps t → (∀ p ∈ ps, p.head? ≠ some '%') → forAllOptions l.opts ps = .ok (some o) →
    forStart δ c.ex l line = forStart δ c.ex { l with opts := o } t := by
  intro ps
  induction ps with
  | nil =>
    intro line l o hk hd h hh ho
    cases h
    simp only [forAllOptions, Res.ok.injEq, Option.some.injEq] at ho
    subst ho
    rfl
  | cons p ps ih =>
    intro line l o hk hd h hh ho
    rw [forAllOptions] at ho
    split at ho
    · next o' ho' =>
      obtain ⟨s, h1, h2⟩ := start_option hq hc hp he c h (l := l) (l' := { l with opts := o' }) (hh p (by simp)) (by
        unfold forOption
        rw [if_neg (by simp [hk, hd]), if_pos hk, ho']
        rfl)
      rw [h1]
      exact ih s { l with opts := o' } o hk hd h2 (fun x hx => hh x (by simp [hx])) ho
    · cases ho
    · cases ho
    · cases ho

theorem start_dir {q : Char → Bool} (hq : q '"' = true) (hc : q '^' = true) (hp : q '%' = true) (he : q '!' = true) (c : Ctx)
    {line p t : List Char} {l : ForLoop} (hk : l.kind = .r ∨ l.kind = .d) (hd : l.dir = []) (h : Params q line [p] t)
    (hh : p.head? ≠ some '%') : forStart δ c.ex l line = forStart δ c.ex { l with dir := p } t := by
  obtain ⟨s, h1, h2⟩ := start_option hq hc hp he c h (l := l) (l' := { l with dir := p }) hh (by
    unfold forOption
    rw [if_neg (by rcases hk with hk | hk <;> simp [hk, hd]), if_neg (by rcases hk with hk | hk <;> simp [hk])])
  cases h2
  exact h1

theorem start_loop {q : Char → Bool} (hq : q '"' = true) (hc : q '^' = true) (hp : q '%' = true) (he : q '!' = true) (c : Ctx)
    {line t : List Char} {k : ForKind} {ps : List (List Char)} {o : ForOpts} {dir : List Char} (h : Params q line ps t)
    (ho : LoopOptions readOptions k ps o dir) (hh : ∀ p ∈ ps, p.head? ≠ some '%') :
    forStart δ c.ex ⟨k, forDefaults, [], ' ', [], []⟩ line = forStart δ c.ex ⟨k, o, dir, ' ', [], []⟩ t := by
  have hdef : ∀ {o}, readOptions [] = some o → o = forDefaults := by
    intro o h
    simpa [readOptions, forAllOptions] using h.symm
  cases ho with
  | simple e => cases h; rw [hdef e]
  | l e => cases h; rw [hdef e]
  | r0 e => cases h; rw [hdef e]
  | d0 e => cases h; rw [hdef e]
  | f e =>
    refine start_f hq hc hp he c ps line ⟨.f, forDefaults, [], ' ', [], []⟩ o rfl rfl h hh ?_
    unfold readOptions at e
    split at e
    · next hr => rw [hr, e]
    · cases e
  | r1 hne e => rw [hdef e]; exact start_dir hq hc hp he c (.inl rfl) rfl h (hh _ (by simp))
  | d1 hne e => rw [hdef e]; exact start_dir hq hc hp he c (.inr rfl) rfl h (hh _ (by simp))

theorem params_append {q : Char → Bool} {t : List Char} {ps : List (List Char)} : ∀ {ss : List (List Char)} {line : List Char},
    Params q line (ss ++ ps) t → ∃ m, Params q line ss m ∧ Params q m ps t := by
  intro ss
  induction ss with
  | nil => intro line h; exact ⟨line, .nil, h⟩
  | cons s ss ih =>
    intro line h
    cases h with
    | cons hw hx ht hr =>
      obtain ⟨m, h1, h2⟩ := ih hr
      exact ⟨m, .cons hw hx ht h1, h2⟩

theorem line_switches {q : Char → Bool} (hq : q '"' = true) (hc : q '^' = true) (hp : q '%' = true) (he : q '!' = true) (c : Ctx)
    {t : List Char} : ∀ {ss : List (List Char)} {line : List Char} {k : ForKind}, Params q line ss t → (∀ s ∈ ss, ∃ j, SwitchName j s) →
    forLine δ c.ex k line = forLine δ c.ex (((ss.getLast?).bind forSwitch).getD k) t := by
  intro ss
  induction ss with
  | nil => intro line k h _; cases h; rfl
  | cons s ss ih =>
    intro line k h hs
    obtain ⟨m, h1, h2⟩ := start_next hq hc hp he c h
    obtain ⟨j, hj⟩ := hs s (by simp)
    rw [forLine.eq_1, h1]
    simp only
    rw [forSwitch_some hj]
    simp only
    rw [if_pos (nextParam_rest_lt h1), ih h2 (fun x hx => hs x (by simp [hx]))]
    congr 1
    rw [List.getLast?_cons]
    cases hl : ss.getLast? with
    | none => simp [forSwitch_some hj]
    | some x =>
      obtain ⟨i, hi⟩ := hs x (by simp [List.mem_of_getLast? hl])
      simp [forSwitch_some hi]

/-- The part of a line up to the variable. -/
theorem forLine_to_var {q : Char → Bool} (hq : q '"' = true) (hc : q '^' = true) (hp : q '%' = true) (he : q '!' = true) (c : Ctx)
    {ss ps : List (List Char)} {v : Char} {line w1 tail dir : List Char} {k : ForKind} {o : ForOpts}
    (h : Params q line (ss ++ ps) (w1 ++ '%' :: v :: tail)) (hw1 : ∀ x ∈ w1, Blank x) (hst : Stops tail)
    (hs : Switches ss k) (ho : LoopOptions readOptions k ps o dir)
    (hh : ∀ p ∈ ps, p.head? ≠ some '%') (hf : ∀ p, ps.head? = some p → (∀ j, ¬ SwitchName j p) ∧ p ≠ ['/', '?'])
    (hv : LoopName v) (hl : c.loops v = none) :
    forLine δ c.ex .simple line = forIn δ c.ex ⟨k, o, dir, v, [], []⟩ tail := by
  obtain ⟨m, h1, h2⟩ := params_append h
  have hvar := read_var c hv hl hw1 hst
  have hkind : forLine δ c.ex .simple line = forLine δ c.ex k m := by
    cases hs with
    | none => cases h1; rfl
    | @last ss k p h3 h4 =>
      rw [line_switches hq hc hp he c h1 (by
        intro s hs
        rcases List.mem_append.1 hs with hs | hs
        · exact h3 s hs
        · simp at hs; subst hs; exact ⟨k, h4⟩)]
      simp [forSwitch_some h4]
  have hstart : forLine δ c.ex k m = forStart δ c.ex ⟨k, forDefaults, [], ' ', [], []⟩ m := by
    cases ps with
    | nil =>
      cases h2
      exact forLine_start hvar (forSwitch_name (by
        intro j hj
        cases hj <;> next h => exact absurd (List.cons.inj h).1 (by decide))) (by simp)
    | cons p ps =>
      obtain ⟨s, h3, -⟩ := start_next hq hc hp he c h2
      exact forLine_start h3 (forSwitch_name (hf p rfl).1) (hf p rfl).2
  rw [hkind, hstart, start_loop hq hc hp he c h2 ho hh]
  unfold forStart
  rw [hvar]
  simp only
  rw [forParams_var _ hv]

theorem line_to_var {q : Char → Bool} (hq : q '"' = true) (hc : q '^' = true) (hp : q '%' = true) (he : q '!' = true) (c : Ctx)
    {ss ps : List (List Char)} {v : Char} {line w1 tail dir : List Char} {k : ForKind} {o : ForOpts}
    (h : Params q line (ss ++ ps) (w1 ++ '%' :: v :: tail)) (hw1 : ∀ x ∈ w1, Blank x) (hst : Stops tail)
    (hs : Switches ss k) (ho : LoopOptions readOptions k ps o dir)
    (hh : ∀ p ∈ ps, p.head? ≠ some '%') (hf : ∀ p, ps.head? = some p → (∀ j, ¬ SwitchName j p) ∧ p ≠ ['/', '?'])
    (hv : LoopName v) (hl : c.loops v = none) :
    cmdFor c.ex line = forIn (forDo c.ex) c.ex ⟨k, o, dir, v, [], []⟩ tail :=
  forLine_to_var hq hc hp he c h hw1 hst hs ho hh hf hv hl

/-- A FOR line is read as written: the kind of loop is that of the last switch, the options are those given, the variable, the set (expanded)
and the commands are those of the line.  Missing: sets with parentheses or quotes that are not balanced, one-line commands with an
unbalanced parenthesis (`C72_smiley`). -/
theorem C72_line_partial {q : Char → Bool} (hq : q '"' = true) (hc : q '^' = true) (hp : q '%' = true) (he : q '!' = true) (c : Ctx)
    {ss ps : List (List Char)} {v : Char} {set set' code line dir : List Char} {k : ForKind} {o : ForOpts}
    (h : ForText q ss ps v set code line) (hs : Switches ss k) (ho : LoopOptions readOptions k ps o dir)
    (hh : ∀ p ∈ ps, p.head? ≠ some '%') (hf : ∀ p, ps.head? = some p → (∀ j, ¬ SwitchName j p) ∧ p ≠ ['/', '?'])
    (hv : LoopName v) (hl : c.loops v = none) (hset : c.ex set = .ok set') :
    cmdFor c.ex line = .ok (.run ⟨k, o, dir, v, set', '(' :: (code ++ [')'])⟩) := by
  cases h with
  | @mk w1 w2 w3 w4 xi i xd d t hpar hw1 hw2 hw2n hxi hi hw3 hw3n hb hw4 hxd hd ht hcode =>
    have hst : Stops (w2 ++ (xi ++ (w3 ++ '(' :: (set ++ ')' :: (w4 ++ (xd ++ t)))))) := by
      cases w2 with
      | nil => exact absurd rfl hw2n
      | cons b r => exact .inr ⟨b, _, rfl, hw2 b (by simp)⟩
    rw [line_to_var hq hc hp he c hpar hw1 hst hs ho hh hf hv hl, forIn_text hq hc hp he c _ hw2 hxi hi hw3 hw3n hb hset,
      forDo_text hq hc hp he c _ hw4 hxd hd ht hcode]

/-- Up to DO the line is read likewise, whatever follows. -/
theorem forHead_text {q : Char → Bool} (hq : q '"' = true) (hc : q '^' = true) (hp : q '%' = true) (he : q '!' = true) (c : Ctx)
    {ss ps : List (List Char)} {v : Char} {set set' line dir w1 w2 w3 w4 xi i xd d t : List Char} {k : ForKind} {o : ForOpts}
    (hpar : Params q line (ss ++ ps) (w1 ++ '%' :: v :: (w2 ++ (xi ++ (w3 ++ '(' :: (set ++ ')' :: (w4 ++ (xd ++ t))))))))
    (hw1 : ∀ x ∈ w1, Blank x) (hw2 : ∀ x ∈ w2, Blank x) (hw2n : w2 ≠ []) (hxi : Written q xi i) (hi : fold i = ['i', 'n'])
    (hw3 : ∀ x ∈ w3, x = ' ' ∨ x = '\t') (hw3n : w3 ≠ []) (hb : Body true set) (hw4 : ∀ x ∈ w4, Blank x) (hxd : Written q xd d)
    (hd : fold d = ['d', 'o']) (ht : Stops t) (hs : Switches ss k) (ho : LoopOptions readOptions k ps o dir)
    (hh : ∀ p ∈ ps, p.head? ≠ some '%') (hf : ∀ p, ps.head? = some p → (∀ j, ¬ SwitchName j p) ∧ p ≠ ['/', '?'])
    (hv : LoopName v) (hl : c.loops v = none) (hset : c.ex set = .ok set') :
    forHead c.ex line = .ok (.run ⟨k, o, dir, v, set', t⟩) := by
  have hst : Stops (w2 ++ (xi ++ (w3 ++ '(' :: (set ++ ')' :: (w4 ++ (xd ++ t)))))) := by
    cases w2 with
    | nil => exact absurd rfl hw2n
    | cons b r => exact .inr ⟨b, _, rfl, hw2 b (by simp)⟩
  unfold forHead
  rw [forLine_to_var hq hc hp he c hpar hw1 hst hs ho hh hf hv hl, forIn_text hq hc hp he c _ hw2 hxi hi hw3 hw3n hb hset,
    forDoWord_text hq hc hp he c _ hw4 hxd hd ht]

/-! ### Refusals -/

theorem read_none {q : Char → Bool} (hq : q '"' = true) (hc : q '^' = true) (hp : q '%' = true) (he : q '!' = true) (c : Ctx)
    {line w : List Char} {ss ps : List (List Char)} {k : ForKind} {t : List Char} (h : Params q line (ss ++ ps) t) (hs : Switches ss k)
    (hf : (ps = [] → t = w ∧ ∀ x ∈ w, Blank x) ∧ ∀ p, ps.head? = some p → (∀ j, ¬ SwitchName j p) ∧ p ≠ ['/', '?']) :
    ∃ m, Params q m ps t ∧ cmdFor c.ex line = forStart (forDo c.ex) c.ex ⟨k, forDefaults, [], ' ', [], []⟩ m := by
  obtain ⟨m, h1, h2⟩ := params_append h
  have hkind : forLine (forDo c.ex) c.ex .simple line = forLine (forDo c.ex) c.ex k m := by
    cases hs with
    | none => cases h1; rfl
    | @last ss k p h3 h4 =>
      rw [line_switches hq hc hp he c h1 (by
        intro s hs
        rcases List.mem_append.1 hs with hs | hs
        · exact h3 s hs
        · simp at hs; subst hs; exact ⟨k, h4⟩)]
      simp [forSwitch_some h4]
  refine ⟨m, h2, ?_⟩
  unfold cmdFor
  rw [hkind]
  cases ps with
  | nil =>
    obtain ⟨rfl, hw⟩ := hf.1 rfl
    cases h2
    have hsk : skipBlanks t = [] := by
      have := skipBlanks_append (s := []) hw
      rw [List.append_nil] at this
      rw [this]; rfl
    rw [forLine.eq_1, nextParam_nil _ _ _ hsk]
    unfold forStart
    rw [nextParam_nil _ _ _ hsk]
  | cons p ps =>
    obtain ⟨s, h3, -⟩ := start_next hq hc hp he c h2
    exact forLine_start h3 (forSwitch_name (hf.2 p rfl).1) (hf.2 p rfl).2

/-- A line without variable is not complete. -/
theorem C72_no_variable {q : Char → Bool} (hq : q '"' = true) (hc : q '^' = true) (hp : q '%' = true) (he : q '!' = true) (c : Ctx)
    {ss ps : List (List Char)} {line w dir : List Char} {k : ForKind} {o : ForOpts} (h : Params q line (ss ++ ps) w)
    (hw : ∀ x ∈ w, Blank x) (hs : Switches ss k) (ho : LoopOptions readOptions k ps o dir) (hh : ∀ p ∈ ps, p.head? ≠ some '%')
    (hf : ∀ p, ps.head? = some p → (∀ j, ¬ SwitchName j p) ∧ p ≠ ['/', '?']) :
    cmdFor c.ex line = .ok .more := by
  obtain ⟨m, h1, h2⟩ := read_none hq hc hp he c h hs ⟨fun _ => ⟨rfl, hw⟩, hf⟩
  rw [h2, start_loop hq hc hp he c h1 ho hh]
  have hsk : skipBlanks w = [] := by
    have := skipBlanks_append (s := []) hw
    rw [List.append_nil] at this
    rw [this]; rfl
  unfold forStart
  rw [nextParam_nil _ _ _ hsk]

/-- Simple loops and FOR /L have no options. -/
theorem C72_no_options {q : Char → Bool} (hq : q '"' = true) (hc : q '^' = true) (hp : q '%' = true) (he : q '!' = true) (c : Ctx)
    {ss ps : List (List Char)} {line t p : List Char} {k : ForKind} (h : Params q line (ss ++ p :: ps) t)
    (hs : Switches ss k) (hk : k = .simple ∨ k = .l) (hh : p.head? ≠ some '%') (hf : (∀ j, ¬ SwitchName j p) ∧ p ≠ ['/', '?']) :
    cmdFor c.ex line = .ok .unexpected := by
  obtain ⟨m, h1, h2⟩ := read_none hq hc hp he c h hs (w := []) ⟨by simp, by intro x hx; cases hx; exact hf⟩
  obtain ⟨s, h3, -⟩ := start_next hq hc hp he c h1
  rw [h2]
  unfold forStart
  rw [h3]
  simp only
  rw [forParams.eq_1, if_neg hh]
  have : forOption ⟨k, forDefaults, [], ' ', [], []⟩ p = .ok (.inr .unexpected) := by
    unfold forOption
    rw [if_pos (by rcases hk with rfl | rfl <;> simp)]
  rw [this]

/-- FOR /R and FOR /D have one directory. -/
theorem C72_one_directory {q : Char → Bool} (hq : q '"' = true) (hc : q '^' = true) (hp : q '%' = true) (he : q '!' = true) (c : Ctx)
    {ss ps : List (List Char)} {line t p p' : List Char} {k : ForKind} (h : Params q line (ss ++ p :: p' :: ps) t)
    (hs : Switches ss k) (hk : k = .r ∨ k = .d) (hne : p ≠ []) (hh : p.head? ≠ some '%') (hh' : p'.head? ≠ some '%')
    (hf : (∀ j, ¬ SwitchName j p) ∧ p ≠ ['/', '?']) :
    cmdFor c.ex line = .ok .unexpected := by
  obtain ⟨m, h1, h2⟩ := read_none hq hc hp he c h hs (w := []) ⟨by simp, by intro x hx; cases hx; exact hf⟩
  obtain ⟨s, h3, h4⟩ := start_option hq hc hp he c h1 (l := ⟨k, forDefaults, [], ' ', [], []⟩)
    (l' := ⟨k, forDefaults, p, ' ', [], []⟩) hh (by
      unfold forOption
      rw [if_neg (by rcases hk with rfl | rfl <;> simp), if_neg (by rcases hk with rfl | rfl <;> simp)])
  obtain ⟨s', h5, -⟩ := start_next hq hc hp he c h4
  rw [h2, h3]
  unfold forStart
  rw [h5]
  simp only
  rw [forParams.eq_1, if_neg hh']
  have : forOption ⟨k, forDefaults, p, ' ', [], []⟩ p' = .ok (.inr .unexpected) := by
    unfold forOption
    rw [if_pos (by simp [hne])]
  rw [this]

/-- Behind the variable there must be IN, behind it the set in parentheses, and DO behind the set. -/
theorem C72_words {q : Char → Bool} (hq : q '"' = true) (hc : q '^' = true) (hp : q '%' = true) (he : q '!' = true) (c : Ctx)
    {ss ps : List (List Char)} {v : Char} {line w1 w2 xi i t dir : List Char} {k : ForKind} {o : ForOpts}
    (h : Params q line (ss ++ ps) (w1 ++ '%' :: v :: (w2 ++ (xi ++ t)))) (hw1 : ∀ x ∈ w1, Blank x)
    (hw2 : ∀ x ∈ w2, Blank x) (hw2n : w2 ≠ []) (hxi : Written q xi i) (ht : Stops t)
    (hs : Switches ss k) (ho : LoopOptions readOptions k ps o dir)
    (hh : ∀ p ∈ ps, p.head? ≠ some '%') (hf : ∀ p, ps.head? = some p → (∀ j, ¬ SwitchName j p) ∧ p ≠ ['/', '?'])
    (hv : LoopName v) (hl : c.loops v = none) :
    (fold i ≠ ['i', 'n'] → cmdFor c.ex line = .ok .more) ∧
    (fold i = ['i', 'n'] → ∀ w x r, t = w ++ x :: r → (∀ y ∈ w, y = ' ' ∨ y = '\t') → x ∉ [' ', '\t', '('] →
      cmdFor c.ex line = .ok .noBlock) ∧
    (fold i = ['i', 'n'] → ∀ w set set' w' x d r, t = w ++ '(' :: (set ++ ')' :: (w' ++ (x ++ r))) → (∀ y ∈ w, y = ' ' ∨ y = '\t') →
      w ≠ [] → Body true set → c.ex set = .ok set' → (∀ y ∈ w', Blank y) → Written q x d → Stops r → fold d ≠ ['d', 'o'] →
      cmdFor c.ex line = .ok .unexpected) := by
  have hst : Stops (w2 ++ (xi ++ t)) := by
    cases w2 with
    | nil => exact absurd rfl hw2n
    | cons b r => exact .inr ⟨b, _, rfl, hw2 b (by simp)⟩
  rw [line_to_var hq hc hp he c h hw1 hst hs ho hh hf hv hl]
  have hr := readsAs_written hq hc hp he hxi c w2 t hw2 ht
  refine ⟨?_, ?_, ?_⟩
  · intro hi
    unfold forIn
    rw [hr]
    simp only [Res.ok_bind]
    rw [if_pos]
    exact fun h => hi (stricmp_zero.1 h)
  · intro hi w x r he' hw hx
    unfold forIn
    rw [hr]
    simp only [Res.ok_bind]
    have : stricmp i ['I', 'N'] = 0 := stricmp_zero.2 (by rw [hi]; rfl)
    have hsk : skipTabs t = x :: r := by
      rw [he']
      clear he'
      simp only [List.mem_cons, List.not_mem_nil, or_false, not_or] at hx
      induction w with
      | nil => rw [List.nil_append, skipTabs, if_neg (by rintro (h | h); exact hx.1 h; exact hx.2.1 h)]
      | cons a w ih => rw [List.cons_append, skipTabs, if_pos (hw a (by simp)), ih (fun y hy => hw y (by simp [hy]))]
    rw [if_neg (fun h => h this), hsk, if_pos]
    simp only [List.mem_cons, List.not_mem_nil, or_false, not_or] at hx
    simpa using hx.2.2
  · intro hi w set set' w' x d r he' hw hwn hb hset hw' hx hr' hd
    subst he'
    rw [forIn_text hq hc hp he c _ hw2 hxi hi hw hwn hb hset]
    unfold forDo forDoWord
    rw [readsAs_written hq hc hp he hx c w' r hw' hr']
    simp only [Res.ok_bind]
    rw [if_pos (fun h => hd (stricmp_zero.1 h))]
    rfl

/-- Text behind the block of commands is refused. -/
theorem C72_trailing {q : Char → Bool} (hq : q '"' = true) (hc : q '^' = true) (hp : q '%' = true) (he : q '!' = true) (c : Ctx)
    {ss ps : List (List Char)} {v : Char} {line w1 w2 w3 w4 w5 w6 xi i xd d set set' b r dir : List Char} {x : Char} {k : ForKind} {o : ForOpts}
    (h : Params q line (ss ++ ps) (w1 ++ '%' :: v :: (w2 ++ (xi ++ (w3 ++ '(' :: (set ++ ')' :: (w4 ++ (xd ++ (w5 ++ '(' :: (b ++ ')' :: (w6 ++ x :: r)))))))))))
    (hw1 : ∀ x ∈ w1, Blank x) (hw2 : ∀ x ∈ w2, Blank x) (hw2n : w2 ≠ []) (hxi : Written q xi i) (hi : fold i = ['i', 'n'])
    (hw3 : ∀ x ∈ w3, x = ' ' ∨ x = '\t') (hw3n : w3 ≠ []) (hset : Body true set) (hexs : c.ex set = .ok set') (hw4 : ∀ x ∈ w4, Blank x)
    (hxd : Written q xd d) (hd : fold d = ['d', 'o']) (hw5 : ∀ x ∈ w5, Blank x) (hw5n : w5 ≠ []) (hb : Body true b)
    (hw6 : ∀ x ∈ w6, Blank x) (hx : ¬ Blank x)
    (hs : Switches ss k) (ho : LoopOptions readOptions k ps o dir)
    (hh : ∀ p ∈ ps, p.head? ≠ some '%') (hf : ∀ p, ps.head? = some p → (∀ j, ¬ SwitchName j p) ∧ p ≠ ['/', '?'])
    (hv : LoopName v) (hl : c.loops v = none) : cmdFor c.ex line = .ok .unexpected := by
  have st : ∀ {w : List Char} (s : List Char), w ≠ [] → (∀ x ∈ w, Blank x) → Stops (w ++ s) := by
    intro w s hn hw
    cases w with
    | nil => exact absurd rfl hn
    | cons b r => exact .inr ⟨b, _, rfl, hw b (by simp)⟩
  rw [line_to_var hq hc hp he c h hw1 (st _ hw2n hw2) hs ho hh hf hv hl, forIn_text hq hc hp he c _ hw2 hxi hi hw3 hw3n hset hexs]
  unfold forDo
  rw [forDoWord_text hq hc hp he c _ hw4 hxd hd (st _ hw5n hw5)]
  simp only [Res.ok_bind, forFinish]
  unfold forCode
  rw [skipBlanks_append hw5, skipBlanks_stop (by decide)]
  simp only [List.head?_cons, if_true, nextBlock_body hb, Res.ok_bind, Res.pure_eq, List.drop_succ_cons, List.drop_zero]
  rw [skipBlanks_append hw6, skipBlanks_stop hx, if_neg (by simp)]
  rfl

/-! ### Termination -/

theorem tokWrite_ends (st : TokSt) (a b : Int) : tokWrite st a b ≠ .hang := by
  unfold tokWrite; split
  · simp
  · split <;> simp

theorem tokWriteList_ends (n : Nat) : ∀ (st : TokSt) (a : Int), tokWriteList st a n ≠ .hang := by
  induction n with
  | zero => intro st a; simp [tokWriteList]
  | succ n ih =>
    intro st a
    rw [tokWriteList]
    cases h : tokWrite st a a with
    | ok r =>
      cases r with
      | none => simp [Res.ok_bind]
      | some st' => simp only [Res.ok_bind]; exact ih _ _
    | ub => simp [Res.ub_bind]
    | hang => exact absurd h (tokWrite_ends _ _ _)

theorem tokFinish_ends (st : TokSt) : tokFinish st ≠ .hang := by
  unfold tokFinish
  split
  · cases h : tokWrite st st.start st.start with
    | ok r => cases r <;> simp [Res.ok_bind]
    | ub => simp [Res.ub_bind]
    | hang => exact absurd h (tokWrite_ends _ _ _)
  · split
    · simp
    · next op _ _ =>
      cases op with
      | cat =>
        simp only
        cases h : tokWrite st st.start st.stop with
        | ok r => cases r <;> simp [Res.ok_bind]
        | ub => simp [Res.ub_bind]
        | hang => exact absurd h (tokWrite_ends _ _ _)
      | list =>
        simp only
        cases h : tokWriteList st st.start (st.stop - st.start + 1).toNat with
        | ok r => cases r <;> simp [Res.ok_bind]
        | ub => simp [Res.ub_bind]
        | hang => exact absurd h (tokWriteList_ends _ _ _)

theorem tokStar_ends (st : TokSt) : tokStar st ≠ .hang := by
  unfold tokStar
  split
  · simp
  · split
    · cases h : tokWrite st st.start st.start with
      | ok r => cases r <;> simp [Res.ok_bind]
      | ub => simp [Res.ub_bind]
      | hang => exact absurd h (tokWrite_ends _ _ _)
    · simp
    · simp

theorem tokLoop_ends (st : TokSt) (p : List Char) : tokLoop st p ≠ .hang := by
  induction hn : p.length using Nat.strongRecOn generalizing st p with
  | ind n ih =>
    rw [tokLoop]
    split
    · simp
    · split
      · split
        · simp
        · exact tokFinish_ends _
      · next st _ c r h =>
        split
        · simp
        · have hlt : r.length < n := by
            have h1 : (skipSpTab p).length ≤ p.length := (List.dropWhile_suffix _).length_le
            have h2 : (skipSpTab (strtol0 (skipSpTab p)).2).length ≤ (strtol0 (skipSpTab p)).2.length := (List.dropWhile_suffix _).length_le
            have h3 : (strtol0 (skipSpTab p)).2.length ≤ (skipSpTab p).length := strtolVal_length _
            rw [h] at h2
            simp at h2
            omega
          simp only
          split
          · split
            · exact ih _ hlt _ _ rfl
            · simp
            · simp
            · next h' => exact absurd h' (tokFinish_ends _)
          · split
            · split
              · simp
              · exact ih _ hlt _ _ rfl
            · split
              · split
                · exact ih _ hlt _ _ rfl
                · simp
                · simp
                · next h' => exact absurd h' (tokStar_ends _)
              · simp

theorem forMakeInfo_ends (o : ForOpts) (s : List Char) : forMakeInfo o s ≠ .hang := by
  have hset : ∀ o t v, forSetOption o t v ≠ .hang := by
    intro o t v
    unfold forSetOption
    cases t with
    | tokens =>
      simp only
      cases h : tokLoop { table := o.table } v with
      | ok r => cases r <;> simp [Res.ok_bind]
      | ub => simp [Res.ub_bind]
      | hang => exact absurd h (tokLoop_ends _ _)
    | _ => simp
  fun_induction forMakeInfo o s with
  | case1 => simp
  | case2 => simp
  | case3 _ _ _ _ _ _ _ _ _ ih => exact ih
  | case4 => simp
  | case5 => simp
  | case6 _ _ _ _ _ _ _ h => exact absurd h (hset _ _ _)

theorem nextBlock_ends (s : List Char) : nextBlock s ≠ .hang := by
  unfold nextBlock
  obtain ⟨o, h, -⟩ := blockEnd_total (skipBlanks s)
  simp only [h, Res.ok_bind]
  cases o <;> simp

theorem forCode_ends (s : List Char) : forCode s ≠ .hang := by
  unfold forCode
  simp only
  split
  · cases h : nextBlock (skipBlanks s) with
    | ok x => simp only [Res.ok_bind, Res.pure_eq]; split <;> split <;> simp
    | ub => simp [Res.ub_bind]
    | hang => exact absurd h (nextBlock_ends _)
  · unfold blockLine
    obtain ⟨o, h, -⟩ := lineEnd_total false (skipBlanks s)
    rw [h]
    cases o with
    | none => simp [Res.ok_bind]
    | some e => simp only [Res.ok_bind]; split <;> split <;> simp

theorem forDo_ends {ex : List Char → Res (List Char)} (hex : ∀ t, ∃ u, ex t = .ok u) (l : ForLoop) (s : List Char) : forDo ex l s ≠ .hang := by
  unfold forDo forDoWord
  obtain ⟨r, hr⟩ := nextParam_total hex s
  rw [hr]
  cases r with
  | none => simp [Res.ok_bind, forFinish]
  | some x =>
    simp only [Res.ok_bind]
    split
    · simp [Res.ok_bind, forFinish]
    · simp only [Res.ok_bind, forFinish]
      cases h : forCode x.2 with
      | ok c => cases c <;> simp [Res.ok_bind]
      | ub => simp [Res.ub_bind]
      | hang => exact absurd h (forCode_ends _)

theorem forIn_ends {ex : List Char → Res (List Char)} (hex : ∀ t, ∃ u, ex t = .ok u) (l : ForLoop) (s : List Char) : forIn (forDo ex) ex l s ≠ .hang := by
  unfold forIn
  obtain ⟨r, hr⟩ := nextParam_total hex s
  rw [hr]
  cases r with
  | none => simp [Res.ok_bind]
  | some x =>
    simp only [Res.ok_bind]
    split
    · simp
    · split
      · simp
      · unfold nextBlockEs
        cases h : nextBlock (skipTabs x.2) with
        | ok b =>
          obtain ⟨u, hu⟩ := hex b.1
          simp only [Res.ok_bind, hu]
          split
          · simp [Res.ub_bind]
          · simp only [Res.ok_bind]; exact forDo_ends hex _ _
        | ub => simp [Res.ub_bind]
        | hang => exact absurd h (nextBlock_ends _)

theorem forParams_ends {ex : List Char → Res (List Char)} (hex : ∀ t, ∃ u, ex t = .ok u) (l : ForLoop) (p s : List Char) :
    forParams (forDo ex) ex l p s ≠ .hang := by
  have ho : ∀ l p, forOption l p ≠ .hang := by
    intro l p
    unfold forOption
    split
    · simp
    · split
      · cases h : forMakeInfo l.opts p with
        | ok r => cases r <;> simp [Res.ok_bind]
        | ub => simp [Res.ub_bind]
        | hang => exact absurd h (forMakeInfo_ends _ _)
      · simp
  induction hn : s.length using Nat.strongRecOn generalizing l p s with
  | ind n ih =>
    rw [forParams.eq_1]
    split
    · split
      · simp
      · exact forIn_ends hex _ _
    · split
      · simp
      · obtain ⟨r, hr⟩ := nextParam_total hex s
        rw [hr]
        cases r with
        | none => simp
        | some x =>
          simp only
          rw [if_pos (nextParam_rest_lt hr)]
          exact ih _ (by have := nextParam_rest_lt hr; omega) _ _ _ rfl
      · simp
      · next h => exact absurd h (ho _ _)

theorem forLine_ends {ex : List Char → Res (List Char)} (hex : ∀ t, ∃ u, ex t = .ok u) (k : ForKind) (s : List Char) : forLine (forDo ex) ex k s ≠ .hang := by
  induction hn : s.length using Nat.strongRecOn generalizing k s with
  | ind n ih =>
    rw [forLine.eq_1]
    obtain ⟨r, hr⟩ := nextParam_total hex s
    rw [hr]
    cases r with
    | none => simp
    | some x =>
      simp only
      split
      · rw [if_pos (nextParam_rest_lt hr)]
        exact ih _ (by have := nextParam_rest_lt hr; omega) _ _ rfl
      · split
        · simp
        · exact forParams_ends hex _ _ _

/-- Every line is read in finite time. -/
theorem C72_ends (c : Ctx) (hv : ∀ n, ∃ v, c.getv n = .ok v) (s : List Char) : cmdFor c.ex s ≠ .hang :=
  forLine_ends (fun t => delayedExpand_total _ _ _ _ hv t) _ _

/-! ### Violations -/

/-- A set that is not closed makes the program read behind the end of the line. -/
theorem C72_unclosed (c : Ctx) {v : Char} (hv : LoopName v) (hl : c.loops v = none) (set set' : List Char) (hn : '\n' ∉ set)
    (hb : blockEnd ('(' :: set) = .ok none) (hset : c.ex set = .ok set') :
    cmdFor c.ex (' ' :: '%' :: v :: ' ' :: 'I' :: 'N' :: ' ' :: '(' :: set) = .ub := by
  have hw : Written (fun c => ['"', '^', '%', '!'].contains c) ['I', 'N'] ['I', 'N'] := .word (by simp) (by decide) (by decide) (by decide)
  have hp : Params (fun c => ['"', '^', '%', '!'].contains c) (' ' :: '%' :: v :: ' ' :: 'I' :: 'N' :: ' ' :: '(' :: set) ([] ++ [])
      ([' '] ++ '%' :: v :: ([' '] ++ (['I', 'N'] ++ ' ' :: '(' :: set))) := .nil
  rw [line_to_var (by decide) (by decide) (by decide) (by decide) c hp (by decide) (.inr ⟨' ', _, rfl, by decide⟩) .none
    (.simple (o := forDefaults) rfl) (by simp) (by simp) hv hl]
  unfold forIn
  rw [readsAs_written (by decide) (by decide) (by decide) (by decide) hw c [' '] _ (by decide) (.inr ⟨' ', _, rfl, by decide⟩)]
  simp only [Res.ok_bind]
  rw [if_neg (by decide)]
  have : skipTabs (' ' :: '(' :: set) = '(' :: set := by simp [skipTabs]
  rw [this, if_neg (by simp)]
  unfold nextBlockEs nextBlock
  rw [skipBlanks_stop (by decide)]
  have h1 : set.takeWhile (· != '\n') = set := by
    clear hb hset hp this
    induction set with
    | nil => rfl
    | cons a r ih =>
      simp only [List.mem_cons, not_or] at hn
      simp [ih hn.2, Ne.symm hn.1]
  have h2 : set.dropWhile (· != '\n') = [] := by
    clear hb hset h1 hp this
    induction set with
    | nil => rfl
    | cons a r ih =>
      simp only [List.mem_cons, not_or] at hn
      simp [ih hn.2, Ne.symm hn.1]
  simp only [hb, Res.ok_bind, List.head?_cons, if_true, List.drop_succ_cons, List.drop_zero, h1, h2, hset]
  rfl

/-- A parameter that still has the doubled percent sign of a script names the same variable as one with a single sign. -/
theorem C72_doubled {ex : List Char → Res (List Char)} (l : ForLoop) {v : Char} (hv : LoopName v) (s : List Char) :
    forParams (forDo ex) ex l ['%', '%', v] s = forParams (forDo ex) ex l ['%', v] s := by
  rw [forParams_var l hv s, forParams.eq_1, if_pos (by rfl)]
  have : forVar ['%', '%', v] = some v := by
    unfold forVar
    simp [hv.1]
  rw [this]

/-- Only the first character of the name of a variable counts; the others are ignored. -/
theorem C72_long_name (p : List Char) (v : Char) (hv : localName v = true) (hp : v ≠ '%') : forVar ('%' :: v :: p) = some v := by
  unfold forVar
  simp [hp, hv]

/-- A closing parenthesis in a command without block ends the commands that are run: of `echo :)` there remains `echo :`. -/
theorem C72_smiley : ∃ code, forCode [' ', 'e', 'c', 'h', 'o', ' ', ':', ')'] = .ok (some code) ∧
    code = ['e', 'c', 'h', 'o', ' ', ':', ')'] ∧ nextBlock ('(' :: (code ++ [')'])) = .ok (['e', 'c', 'h', 'o', ' ', ':'], [')', ')']) :=
  ⟨_, by decide +kernel, rfl, by decide +kernel⟩

/-! ### Examples -/

/-- `FOR /f "delims=;" %i IN ("a;b") DO echo %i`. -/
example : ForText (fun c => ['"', '^', '%', '!'].contains c) [['/', 'f']] [['d', 'e', 'l', 'i', 'm', 's', '=', ';']] 'i'
    ['"', 'a', ';', 'b', '"'] ['e', 'c', 'h', 'o', ' ', '%', 'i']
    (' ' :: ['/', 'f', ' ', '"', 'd', 'e', 'l', 'i', 'm', 's', '=', ';', '"', ' ', '%', 'i', ' ', 'I', 'N', ' ', '(', '"', 'a', ';', 'b', '"', ')', ' ',
      'D', 'O', ' ', 'e', 'c', 'h', 'o', ' ', '%', 'i']) := by
  have bw : ∀ (s : List Char), blockWord s = false → ¬ BlockWord s := by
    intro s h h'; rw [← blockWord_iff, h] at h'; exact absurd h' (by simp)
  have cl : ∀ {s : List Char} (p : Char → Bool), (∀ c ∈ s, c ≠ '^') → searchTok (· == '\n') s = none → searchOutQuotes p s = none →
      quotesBefore s s.length % 2 = 0 → Free s s.length → Closed p s := by
    intro s p _ h1 h2 h3 h4
    have a := searchTok_first (· == '\n') s
    have b := searchOutQuotes_spec p s
    rw [h1] at a
    rw [h2] at b
    exact ⟨b, a, h3, h4⟩
  refine .mk (w1 := [' ']) (w2 := [' ']) (w3 := [' ']) (w4 := [' ']) (xi := ['I', 'N']) (i := ['I', 'N']) (xd := ['D', 'O']) (d := ['D', 'O'])
    (t := [' ', 'e', 'c', 'h', 'o', ' ', '%', 'i']) ?_ (by decide) (by decide) (by decide) (.word (by decide) (by decide) (by decide) (by decide))
    (by decide) (by decide) (by decide) ?_ (by decide) (.word (by decide) (by decide) (by decide) (by decide)) (by decide)
    (.inr ⟨' ', _, rfl, by decide⟩) ?_
  · refine .cons (w := [' ']) (x := ['/', 'f']) (by decide) (.word (by decide) (by decide) (by decide) (by decide)) (.inr ⟨' ', _, rfl, by decide⟩) ?_
    exact .cons (w := [' ']) (x := ['"', 'd', 'e', 'l', 'i', 'm', 's', '=', ';', '"']) (by decide)
      (.quoted (a := ['d', 'e', 'l', 'i', 'm', 's', '=', ';'])) (.inr ⟨' ', _, rfl, by decide⟩) .nil
  · refine .last (.plain (w := []) (t := ['"', 'a', ';', 'b', '"']) (by simp) ?_ (bw _ (by decide)) ?_)
    · intro c hc; cases hc; exact ⟨by unfold Margin; decide, by decide⟩
    · exact cl _ (by decide) (by decide +kernel) (by decide +kernel) (by decide +kernel) (by simp [Free, caretsBefore])
  · refine .line (w := [' ']) (by decide) (.plain (w := []) (by simp) ?_ (bw _ (by decide)) ?_) ?_
    · intro c hc; cases hc; exact ⟨by unfold Margin; decide, by decide⟩
    · exact cl _ (by decide) (by decide +kernel) (by decide +kernel) (by decide +kernel) (by simp [Free, caretsBefore])
    · intro c hc; cases hc; exact ⟨by decide, by decide⟩

example : LoopName 'i' := ⟨by decide, by decide, by decide⟩

example : blockEnd ['(', 'a', ' ', '"', 'b', ')', ' ', 'D', 'O', ' ', 'e', 'c', 'h', 'o'] = .ok none := by decide +kernel

end PBat
