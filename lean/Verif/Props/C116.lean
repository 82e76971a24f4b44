import Verif.Model.ForRun
import Verif.Props.C14
import Verif.Props.C22
import Verif.Props.C71
import Verif.Props.C72
import Verif.Props.C115
/-
C116: FOR in a script, from its text to its effect.
-/
namespace PBat.Prog
open PBat PBat.Spec PBat.Spec.Prog PBat.Spec.Txt

variable {W τ : Type}

/-- Texts and numbers: with a positive step the values are those of the progression. -/
theorem texts_progression {s b : Int} (hs : 0 < s) (hb : b + s < 2 ^ 31) : ∀ (fuel : Nat) (a : Int), -2 ^ 31 ≤ a → (b - a + 1).toNat < fuel →
    forLTexts s b fuel a = (progression a s b).map intText := by
  intro fuel
  induction fuel with
  | zero => intro a _ h; omega
  | succ fuel ih =>
    intro a ha hf
    rw [forLTexts]
    by_cases hab : a ≤ b
    · rw [if_pos hab, if_pos (by omega), progression_step hs hab, List.map_cons, ih (a + s) (by omega) (by omega)]
    · rw [if_neg hab, progression_end hs (by omega), List.map_nil]

/-! ### Reading up to DO and going on from there is reading the line -/

theorem finish_ok {r : Res ForOut} (h : ∀ o, r = .ok o → ∀ l, o ≠ .run l) : (r >>= forFinish) = r := by
  cases r with
  | ok o => cases o <;> first | rfl | exact absurd rfl (h _ rfl _)
  | ub => rfl
  | hang => rfl

theorem forIn_finish (d : ForLoop → List Char → Res ForOut) (ex : List Char → Res (List Char)) (l : ForLoop) (s : List Char) :
    forIn (fun l s => d l s >>= forFinish) ex l s = (forIn d ex l s >>= forFinish) := by
  unfold forIn
  cases nextParam stdDelims ex s with
  | ub => rfl
  | hang => rfl
  | ok p =>
    cases p with
    | none => rfl
    | some p =>
      simp only [Res.ok_bind]
      split
      · rfl
      · split
        · rfl
        · cases nextBlockEs ex (skipTabs p.2) <;> rfl

theorem forParams_finish (d : ForLoop → List Char → Res ForOut) (ex : List Char → Res (List Char)) (n : Nat) : ∀ (s : List Char), s.length < n →
    ∀ (l : ForLoop) (p : List Char), forParams (fun l s => d l s >>= forFinish) ex l p s = (forParams d ex l p s >>= forFinish) := by
  induction n with
  | zero => intro s h; omega
  | succ n ih =>
    intro s hs l p
    rw [forParams.eq_1, forParams.eq_1]
    split
    · split
      · rfl
      · exact forIn_finish d ex _ s
    · cases ho : forOption l p with
      | ub => rfl
      | hang => rfl
      | ok o =>
        cases o with
        | inr e =>
          refine (finish_ok ?_).symm
          rintro _ h l' rfl
          cases h
          unfold forOption at ho
          split at ho
          · cases ho
          · split at ho
            · cases hm : forMakeInfo l.opts p with
              | ok m => rw [hm] at ho; cases m <;> cases ho
              | ub => rw [hm] at ho; cases ho
              | hang => rw [hm] at ho; cases ho
            · cases ho
        | inl l' =>
          simp only
          cases nextParam stdDelims ex s with
          | ub => rfl
          | hang => rfl
          | ok r =>
            cases r with
            | none => rfl
            | some r =>
              simp only
              split
              · exact ih r.2 (by omega) l' r.1
              · rfl

theorem forLine_finish (d : ForLoop → List Char → Res ForOut) (ex : List Char → Res (List Char)) (n : Nat) : ∀ (s : List Char), s.length < n →
    ∀ k, forLine (fun l s => d l s >>= forFinish) ex k s = (forLine d ex k s >>= forFinish) := by
  induction n with
  | zero => intro s h; omega
  | succ n ih =>
    intro s hs k
    rw [forLine.eq_1, forLine.eq_1]
    cases nextParam stdDelims ex s with
    | ub => rfl
    | hang => rfl
    | ok r =>
      cases r with
      | none => rfl
      | some r =>
        simp only
        split
        · split
          · exact ih r.2 (by omega) _
          · rfl
        · split
          · rfl
          · exact forParams_finish d ex _ r.2 (Nat.lt_succ_self _) _ _

/-- What the line of FOR is, is decided by the text up to DO, and then by what follows. -/
theorem C116_head (ex : List Char → Res (List Char)) (s : List Char) : cmdFor ex s = (forHead ex s >>= forFinish) :=
  forLine_finish (forDoWord ex) ex _ s (Nat.lt_succ_self _) .simple

/-- A line of FOR with known values. -/
theorem for_effect (lc : LibC) {h : Host (Char × List Char) W τ} (hcls : h.cls = tableCls (mapInfo lc defaultCmds))
    {t : List Char} {l : SrcLine} {items : List Char → List RedirItem} {s : τ × τ × τ} {x x0 x' : W × Script} {e e' : Int} {a : Abort}
    (ht : unindent t = l.text) (hl : ∀ r, unindent t ≠ ':' :: r) (hw : WellFormed l.first.1 l.tail)
    (hi : ∀ c ∈ l.cmds, RedirCommand nameSpecial c (items c) ∧ Once (items c))
    {y u code : List Char} {strict : Bool} {vs : List (Char × List Char)} (hfor : FirstWord "for".toList (textOf (items l.first.1)) y)
    (h1 : h.forBehind y x = .ok u) (hcode : Governs strict u code) (h2 : h.forValues y x = (x0, .ok vs))
    {rd : List Char → Txt.Piece} (hrd : rd = fun c => (redirs (h.full x.1) (items c), textOf (items c)))
    (husual : ∀ c ∈ l.first.2 ++ l.more.flatMap (fun p => p.2.1 :: p.2.2), Usual h (textOf (items c)))
    (hdoes : Does nameSpecial h (.rounds vs
      ((.seq, ((rd l.first.1).1, '(' :: (code ++ [')'])), l.first.2.map rd) :: l.more.map (fun p => (p.1, rd p.2.1, p.2.2.map rd)))) s x0 e x' e' a)
    {io : Io τ} (hoo : io.outOwn = true) (heo : io.errOut = false) (hs : io.streams = s) :
    ∃ N, ∀ n, N ≤ n → h.lineText n t ⟨x, e, .no, io⟩ = some ⟨h.base.setVar none x', 0, a, io⟩ := by
  subst hrd
  refine C113_line_partial h (.line ht hl hw hi ?_) hoo heo hs
  refine .loop (strict := strict) rfl ((C115_for lc hcls _ y).2 hfor) h1 hcode h2 ?_ ?_ hdoes
  · intro c hc
    obtain ⟨z, hz, rfl⟩ := List.mem_map.1 hc
    exact husual z (by simp [hz])
  · intro z hz c hc
    obtain ⟨p, hp, rfl⟩ := List.mem_map.1 hz
    rcases List.mem_cons.1 hc with rfl | hc
    · exact husual p.2.1 (by simp only [List.mem_append, List.mem_flatMap]; exact .inr ⟨p, hp, by simp⟩)
    · obtain ⟨w, hw, rfl⟩ := List.mem_map.1 hc
      exact husual w (by simp only [List.mem_append, List.mem_flatMap]; exact .inr ⟨p, hp, by simp [hw]⟩)

/-- FOR /L in a line of a script, from the text to the effect: the block or command behind DO, with the rest of the line, runs for each number
of the progression, in order, the variable being its decimal text; then the variable is removed.  Partial: as `C22_progression_partial` the step
is positive and the end is at least one step below the greatest integer, and there is no IF or FOR in the rest of the line (`C113_for_if`). -/
theorem C116_for_l_partial (lc : LibC) {h : Host (Char × List Char) W τ} (hcls : h.cls = tableCls (mapInfo lc defaultCmds)) {cx : W × Script → Ctx}
    {note : Char → W × Script → W × Script} {other : ForLoop → W × Script → (W × Script) × Except Int (List (Char × List Char))}
    (hbeh : h.forBehind = tableBehind fun x => (cx x).ex) (hval : h.forValues = tableValues (fun x => (cx x).ex) note other)
    {q : Char → Bool} (hq : q '"' = true) (hc : q '^' = true) (hp : q '%' = true) (he : q '!' = true)
    {t : List Char} {l : SrcLine} {items : List Char → List RedirItem} {s : τ × τ × τ} {x x' : W × Script} {e e' : Int} {a : Abort}
    (ht : unindent t = l.text) (hl : ∀ r, unindent t ≠ ':' :: r) (hw : WellFormed l.first.1 l.tail)
    (hi : ∀ c ∈ l.cmds, RedirCommand nameSpecial c (items c) ∧ Once (items c))
    {y u w1 w2 w3 w4 xi i xd d set set' code ta ts tb : List Char} {ss : List (List Char)} {v : Char} {strict : Bool} {na ns nb : Int}
    (hfor : FirstWord "for".toList (textOf (items l.first.1)) y)
    (hpar : Params q y ss (w1 ++ '%' :: v :: (w2 ++ (xi ++ (w3 ++ '(' :: (set ++ ')' :: (w4 ++ (xd ++ u))))))))
    (hss : Switches ss .l) (hw1 : ∀ x ∈ w1, Blank x) (hw2 : ∀ x ∈ w2, Blank x) (hw2n : w2 ≠ []) (hxi : Written q xi i) (hin : fold i = ['i', 'n'])
    (hw3 : ∀ x ∈ w3, x = ' ' ∨ x = '\t') (hw3n : w3 ≠ []) (hb : Body true set) (hw4 : ∀ x ∈ w4, Blank x) (hxd : Written q xd d)
    (hd : fold d = ['d', 'o']) (hu : u = [] ∨ ∃ b r, u = b :: r ∧ Blank b) (hcode : Governs strict u code)
    (hv : LoopName v) (hlv : (cx x).loops v = none) (hset : (cx x).ex set = .ok set') (hnum : ParamLine q set' [ta, ts, tb])
    (hna : Number ta na) (hns : Number ts ns) (hnb : Number tb nb) (ha' : -2 ^ 31 ≤ na ∧ na < 2 ^ 31) (hs' : 0 < ns ∧ ns < 2 ^ 31)
    (hb' : -2 ^ 31 ≤ nb ∧ nb + ns < 2 ^ 31)
    {rd : List Char → Txt.Piece} (hrd : rd = fun c => (redirs (h.full x.1) (items c), textOf (items c)))
    (husual : ∀ c ∈ l.first.2 ++ l.more.flatMap (fun p => p.2.1 :: p.2.2), Usual h (textOf (items c)))
    (hdoes : Does nameSpecial h (.rounds ((progression na ns nb).map fun n => (v, intText n))
      ((.seq, ((rd l.first.1).1, '(' :: (code ++ [')'])), l.first.2.map rd) :: l.more.map (fun p => (p.1, rd p.2.1, p.2.2.map rd)))) s (note v x) e x' e' a)
    {io : Io τ} (hoo : io.outOwn = true) (heo : io.errOut = false) (hs : io.streams = s) :
    ∃ N, ∀ n, N ≤ n → h.lineText n t ⟨x, e, .no, io⟩ = some ⟨h.base.setVar none x', 0, a, io⟩ := by
  subst hrd
  have hhead := forHead_text hq hc hp he (cx x) (ss := ss) (ps := []) (by rw [List.append_nil]; exact hpar) hw1 hw2 hw2n hxi hin hw3 hw3n hb hw4 hxd hd hu hss
    (LoopOptions.l (o := forDefaults) (by decide +kernel)) (by simp) (by simp) hv hlv hset
  have hps : allParams stdDelims (cx x).ex set' = .ok [ta, ts, tb] := C14_roundtrip _ _ _ _ q hq hc hp he set' _ hnum
  have hbounds : forLBounds [ta, ts, tb] = some (na, ns, nb) := by
    have k := fun {t v} (h : Number t v) (h1 : -2 ^ 63 ≤ v) (h2 : v < 2 ^ 63) => by
      have := strtol0_number h [] (by intro c hc; cases hc) h1 h2
      rwa [List.append_nil] at this
    have ka := k hna (by omega) (by omega)
    have ks := k hns (by omega) (by omega)
    have kb := k hnb (by omega) (by omega)
    unfold forLBounds
    rw [if_neg (by simp), if_pos (by simp [ka, ks, kb])]
    simp only [List.getElem?_cons_zero, List.getElem?_cons_succ, ka, ks, kb]
    rw [longToInt_id ha'.1 ha'.2, longToInt_id (by omega) (by omega), longToInt_id (by omega) (by omega)]
  have h1 : h.forBehind y x = .ok u := by
    rw [hbeh]
    unfold tableBehind
    rw [hhead]
  have h2 : h.forValues y x = (note v x, .ok ((progression na ns nb).map fun n => (v, intText n))) := by
    rw [hval]
    unfold tableValues
    rw [hhead]
    simp only [if_true, hps, hbounds]
    rw [texts_progression hs'.1 hb'.2 _ _ ha'.1 (Nat.lt_succ_self _), List.map_map]
    rfl
  exact for_effect lc hcls ht hl hw hi hfor h1 hcode h2 rfl husual hdoes hoo heo hs

theorem chunks_count {s : List Char} {cs : List (List Char)} (h : Chunks Blank s cs) : cs.length ≤ s.length := by
  induction h with
  | nil => simp
  | cons hw hr he hrest ih =>
    obtain ⟨c, r, rfl, -⟩ := hr
    simp only [List.length_cons, List.length_append]
    omega

theorem texts_chunks {s : List Char} {cs : List (List Char)} (h : Chunks Blank s cs) : ∀ (n : Nat), cs.length < n → chunkTexts n (some s) = some cs := by
  induction h with
  | nil hw =>
    intro n hn
    obtain ⟨n, rfl⟩ : ∃ k, n = k + 1 := ⟨n - 1, by simp at hn; omega⟩
    rw [chunkTexts, nextChunk_end hw]
  | @cons w raw rest cs hw hr he hrest ih =>
    intro n hn
    obtain ⟨n, rfl⟩ : ∃ k, n = k + 1 := ⟨n - 1, by simp at hn; omega⟩
    rw [chunkTexts, nextChunk_cons hw hr he]
    simp only
    by_cases hre : rest = []
    · subst hre
      have := chunks_empty hrest
      subst this
      obtain ⟨n, rfl⟩ : ∃ k, n = k + 1 := ⟨n - 1, by simp at hn; omega⟩
      rw [if_pos rfl, chunkTexts]
      rfl
    · rw [if_neg hre, ih n (by simp at hn; omega)]
      rfl

/-- The simple FOR in a line of a script, from the text to the effect: the block or command behind DO, with the rest of the line, runs for each
chunk of the set, in order; then the variable is removed.  Partial: as in `C71_chunks_partial` only blanks lie between the chunks (`C71_colon`),
none has wildcards, and there is no IF or FOR in the rest of the line (`C113_for_if`). -/
theorem C116_for_set_partial (lc : LibC) {h : Host (Char × List Char) W τ} (hcls : h.cls = tableCls (mapInfo lc defaultCmds)) {cx : W × Script → Ctx}
    {note : Char → W × Script → W × Script} {other : ForLoop → W × Script → (W × Script) × Except Int (List (Char × List Char))}
    (hbeh : h.forBehind = tableBehind fun x => (cx x).ex) (hval : h.forValues = tableValues (fun x => (cx x).ex) note other)
    {q : Char → Bool} (hq : q '"' = true) (hc : q '^' = true) (hp : q '%' = true) (he : q '!' = true)
    {t : List Char} {l : SrcLine} {items : List Char → List RedirItem} {s : τ × τ × τ} {x x' : W × Script} {e e' : Int} {a : Abort}
    (ht : unindent t = l.text) (hl : ∀ r, unindent t ≠ ':' :: r) (hw : WellFormed l.first.1 l.tail)
    (hi : ∀ c ∈ l.cmds, RedirCommand nameSpecial c (items c) ∧ Once (items c))
    {y u w1 w2 w3 w4 xi i xd d set set' code : List Char} {v : Char} {strict : Bool} {cs : List (List Char)}
    (hfor : FirstWord "for".toList (textOf (items l.first.1)) y)
    (hy : y = w1 ++ '%' :: v :: (w2 ++ (xi ++ (w3 ++ '(' :: (set ++ ')' :: (w4 ++ (xd ++ u)))))))
    (hw1 : ∀ x ∈ w1, Blank x) (hw2 : ∀ x ∈ w2, Blank x) (hw2n : w2 ≠ []) (hxi : Written q xi i) (hin : fold i = ['i', 'n'])
    (hw3 : ∀ x ∈ w3, x = ' ' ∨ x = '\t') (hw3n : w3 ≠ []) (hb : Body true set) (hw4 : ∀ x ∈ w4, Blank x) (hxd : Written q xd d)
    (hd : fold d = ['d', 'o']) (hu : u = [] ∨ ∃ b r, u = b :: r ∧ Blank b) (hcode : Governs strict u code)
    (hv : LoopName v) (hlv : (cx x).loops v = none) (hset : (cx x).ex set = .ok set') (hcs : Chunks Blank set' cs)
    (hwild : ∀ z ∈ cs, '*' ∉ z ∧ '?' ∉ z)
    {rd : List Char → Txt.Piece} (hrd : rd = fun c => (redirs (h.full x.1) (items c), textOf (items c)))
    (husual : ∀ c ∈ l.first.2 ++ l.more.flatMap (fun p => p.2.1 :: p.2.2), Usual h (textOf (items c)))
    (hdoes : Does nameSpecial h (.rounds (cs.map fun z => (v, z))
      ((.seq, ((rd l.first.1).1, '(' :: (code ++ [')'])), l.first.2.map rd) :: l.more.map (fun p => (p.1, rd p.2.1, p.2.2.map rd)))) s (note v x) e x' e' a)
    {io : Io τ} (hoo : io.outOwn = true) (heo : io.errOut = false) (hs : io.streams = s) :
    ∃ N, ∀ n, N ≤ n → h.lineText n t ⟨x, e, .no, io⟩ = some ⟨h.base.setVar none x', 0, a, io⟩ := by
  subst hrd
  have hhead := forHead_text hq hc hp he (cx x) (ss := []) (ps := []) (by rw [← hy]; exact .nil) hw1 hw2 hw2n hxi hin hw3 hw3n hb hw4 hxd hd hu .none
    (LoopOptions.simple (o := forDefaults) (by decide +kernel)) (by simp) (by simp) hv hlv hset
  have h1 : h.forBehind y x = .ok u := by
    rw [hbeh]
    unfold tableBehind
    rw [hhead]
  have h2 : h.forValues y x = (note v x, .ok (cs.map fun z => (v, z))) := by
    rw [hval]
    unfold tableValues
    rw [hhead]
    have hany : cs.any (fun x => x.any fun d => d == '*' || d == '?') = false := by
      rw [List.any_eq_false]
      intro z hz
      rw [Bool.not_eq_true, List.any_eq_false]
      intro d hd hdd
      simp only [Bool.or_eq_true, beq_iff_eq] at hdd
      rcases hdd with rfl | rfl
      · exact (hwild z hz).1 hd
      · exact (hwild z hz).2 hd
    simp only [if_true, texts_chunks hcs _ (Nat.lt_succ_of_le (chunks_count hcs)), hany]
    rfl
  exact for_effect lc hcls ht hl hw hi hfor h1 hcode h2 rfl husual hdoes hoo heo hs

/-- A line of FOR that is refused before DO: nothing of it runs, the rest of the line neither, and the code says why. -/
theorem C116_refused (lc : LibC) {h : Host (Char × List Char) W τ} (hcls : h.cls = tableCls (mapInfo lc defaultCmds))
    {ex : W × Script → List Char → Res (List Char)} (hbeh : h.forBehind = tableBehind ex)
    {t y : List Char} {l : SrcLine} {items : List Char → List RedirItem} {x : W × Script} {e code : Int}
    (ht : unindent t = l.text) (hl : ∀ r, unindent t ≠ ':' :: r) (hw : WellFormed l.first.1 l.tail)
    (hi : ∀ c ∈ l.cmds, RedirCommand nameSpecial c (items c) ∧ Once (items c)) (hfor : FirstWord "for".toList (textOf (items l.first.1)) y)
    (hr : (cmdFor (ex x) y = .ok .more ∧ code = 8) ∨ (cmdFor (ex x) y = .ok .badVar ∧ code = 16) ∨ (cmdFor (ex x) y = .ok .noBlock ∧ code = 17))
    {io : Io τ} (hoo : io.outOwn = true) (heo : io.errOut = false) :
    ∃ N, ∀ n, N ≤ n → h.lineText n t ⟨x, e, .no, io⟩ = some ⟨x, code, .no, io⟩ := by
  have key : h.forBehind y x = .error code := by
    rw [hbeh]
    unfold tableBehind
    rw [C116_head] at hr
    cases hh : forHead (ex x) y with
    | ub => rw [hh] at hr; simp [Res.ub_bind] at hr
    | hang => rw [hh] at hr; simp [Res.hang_bind] at hr
    | ok o =>
      rw [hh] at hr
      simp only [Res.ok_bind] at hr
      cases o with
      | run l =>
        exfalso
        simp only [forFinish] at hr
        cases hc : forCode l.code with
        | ok c => rw [hc] at hr; cases c <;> simp [Res.ok_bind] at hr
        | ub => rw [hc] at hr; simp [Res.ub_bind] at hr
        | hang => rw [hc] at hr; simp [Res.hang_bind] at hr
      | help => simp [forFinish] at hr
      | unexpected => simp [forFinish] at hr
      | badOption => simp [forFinish] at hr
      | more => simp [forFinish] at hr; rw [hr]; rfl
      | badVar => simp [forFinish] at hr; rw [hr]; rfl
      | noBlock => simp [forFinish] at hr; rw [hr]; rfl
  refine C113_line_partial h (.line ht hl hw hi ?_) hoo heo rfl
  exact .malformed rfl ((C115_for lc hcls _ y).2 hfor) key

/-! ### Examples -/

/-- The commands record where they write to, the assignments of the variable what it is. -/
def forHost (lc : LibC) : Host (Char × List Char) (List (List Char × List Char)) (List Char) where
  base := {
    exec := fun c x _ s => (((c, s.2.1) :: x.1, x.2), 0, .no)
    test := fun _ _ _ => .no
    setVar := fun v x => (("set".toList, match v with | none => [] | some v => v.1 :: '=' :: v.2) :: x.1, x.2)
    openFile := fun f _ x => (x, some f)
    pipe := fun x => (x, "pipe".toList)
    spawn := fun _ _ _ _ _ x => x
    fetch := fun _ => none
    enter := fun _ x => .ok x
    leave := fun x _ => x }
  args := fun _ _ => none
  loops := fun _ _ => none
  mods := fun _ _ _ _ => []
  vars := fun _ _ => none
  delayed := fun _ => false
  full := fun _ f => f
  echo := fun _ w => w
  cls := tableCls (mapInfo lc defaultCmds)
  forBehind := tableBehind fun _ => (⟨false, fun _ => none, fun _ _ _ => [], fun _ => .ok none⟩ : Ctx).ex
  forValues := tableValues (fun _ => (⟨false, fun _ => none, fun _ _ _ => [], fun _ => .ok none⟩ : Ctx).ex) (fun _ x => x) (fun _ x => (x, .error 1))

/-- On the model itself: a loop with a redirection and a second command; a loop without values; one without `in`; one without `(`. -/
example (lc : LibC) : ["For /L %i in (1,2,4) do one >g & two".toList, "for /l %i in (3 1 2) do one".toList, "for /l %i (1,1,2) do one".toList,
      "for /l %i in 1 do one".toList].map (fun l =>
      ((forHost lc).lineText 9 l ⟨([], ⟨[], [], 0, 0⟩), 5, .no, ⟨"in".toList, "out".toList, "err".toList, true, false, []⟩⟩).map
        (fun s => (s.world.1.reverse, s.err))) =
    [some ([("set".toList, "i=1".toList), ("one  ".toList, "g".toList), ("two".toList, "out".toList),
        ("set".toList, "i=3".toList), ("one  ".toList, "g".toList), ("two".toList, "out".toList), ("set".toList, [])], 0),
      some ([("set".toList, [])], 0), some ([], 8), some ([], 17)] := by
  unfold forHost
  rw [default_table]
  decide +kernel

/-- The lines `C116_refused` is about. -/
example : [" /l %i (1,1,2) do one".toList, " % in (1) do one".toList, " %i in 1 do one".toList].map
      (cmdFor (⟨false, fun _ => none, fun _ _ _ => [], fun _ => .ok none⟩ : Ctx).ex) = [.ok .more, .ok .badVar, .ok .noBlock] := by decide +kernel

theorem forHost_one (lc : LibC) : (forHost lc).cls "one".toList = .simple "one".toList := by
  show tableCls (mapInfo lc defaultCmds) _ = _
  have h : (putSeed (sortBy (fun x y => stricmp x.name y.name) defaultCmds) 0 (defaultCmds.length + 1) .leaf).lookup "one".toList = .ok none := by
    decide +kernel
  unfold tableCls
  rw [default_table, h]

theorem forHost_wrapped (lc : LibC) : Regular (forHost lc) (({}, "(one)".toList), []) := by
  intro d hd
  obtain rfl := List.mem_singleton.1 hd
  exact ⟨usual_wrap _ "one".toList, .inl ⟨rfl, rfl⟩⟩

theorem forHost_block (lc : LibC) (s : List Char × List Char × List Char) (x : List (List Char × List Char) × Script) (e : Int) :
    Does nameSpecial (forHost lc) (.command "(one)".toList) s x e (("one".toList, s.2.1) :: x.1, x.2) 0 .no := by
  have regular : Regular (forHost lc) (({}, "one".toList), []) := by
    intro d hd
    obtain rfl := List.mem_singleton.1 hd
    exact ⟨usual_plain (forHost_one lc), .inl ⟨rfl, rfl⟩⟩
  refine .block (w := []) (b := "one".toList) (v := []) (rs := ["one".toList]) (strict := true) (by simp [Txt.Lead])
    (.last (.one (.plain (w := []) (t := "one".toList) (by simp) (by decide) (by decide) (by decide)))) (by decide) (by decide) ?_
  refine .next (l := "one".toList) (ls := []) (a := .no) ?_ (.inl rfl) .end
  refine .line (l := ⟨("one".toList, []), []⟩) (items := fun c => [.text c]) (by decide)
    (by intro r h; have := congrArg List.head? h; revert this; rw [List.head?_cons]; decide) (.plain (by decide)) ?_ ?_
  · intro c hc
    simp only [SrcLine.cmds, SrcLine.tail, pipes, List.map_nil, List.flatMap_nil, List.append_nil, List.mem_cons, List.not_mem_nil, or_false] at hc
    subst hc
    exact ⟨.plain (.last (NoSign.none (t := "one".toList) (by decide))) (.inl (by decide)), by decide⟩
  · refine .go rfl regular ?_ .stop
    exact .simple (w := []) (r := "one".toList) (by simp [Txt.Lead]) (by unfold Bare; simp; decide) (by decide) (forHost_one lc) rfl

theorem noParens_do : ∀ i, ¬ (Hit (fun c => c == '(' || c == ')') " do one".toList i ∧ OutQuotes " do one".toList i) := by
  rintro i ⟨⟨⟨c, hc, hp⟩, -⟩, -⟩
  have : ∀ c ∈ " do one".toList, (c == '(' || c == ')') = false := by decide
  exact absurd (hp.symm.trans (this c (List.mem_of_getElem? hc))) (by decide)

/-- All hypotheses of `C116_for_l_partial` are met. -/
example (lc : LibC) (sc : Script) {io : Io (List Char)} (ho : io.outOwn = true) (he : io.errOut = false) :
    ∃ N, ∀ n, N ≤ n → (forHost lc).lineText n "for /l %i in (1,1,2) do one".toList ⟨([], sc), 5, .no, io⟩ =
      some ⟨([("set".toList, []), ("one".toList, io.streams.2.1), ("set".toList, "i=2".toList), ("one".toList, io.streams.2.1),
        ("set".toList, "i=1".toList)], sc), 0, .no, io⟩ := by
  have word : BlockWord "for /l %i in ".toList := ⟨"for".toList, ' ', "/l %i in ".toList, rfl, by unfold Blank; decide, by decide⟩
  have body : Body false "1,1,2".toList := .last (.plain (w := []) (t := "1,1,2".toList) (by simp) (by decide) (by decide) (by decide))
  have num : ∀ c ∈ "12".toList, Written nameSpecial [c] [c] := by
    intro c hc
    have : ∀ c ∈ "12".toList, ¬ Blank c ∧ c ≠ '"' ∧ nameSpecial c = false := by decide
    obtain ⟨h1, h2, h3⟩ := this c hc
    exact .word (by simp) (by simpa using h1) (by simpa using Ne.symm h2) (by simpa using h3)
  refine C116_for_l_partial lc (h := forHost lc) (e' := 0) (s := io.streams) (note := fun _ x => x) (other := fun _ x => (x, .error 1))
    (x' := ([("one".toList, io.streams.2.1), ("set".toList, "i=2".toList), ("one".toList, io.streams.2.1), ("set".toList, "i=1".toList)], sc)) rfl
    (cx := fun _ => ⟨false, fun _ => none, fun _ _ _ => [], fun _ => .ok none⟩) rfl rfl (q := nameSpecial) (by decide) (by decide) (by decide) (by decide)
    (l := ⟨("for /l %i in (1,1,2) do one".toList, []), []⟩)
    (items := fun _ => [.text "for /l %i in (1,1,2)".toList, .text " do one".toList]) (by decide)
    (by intro r h; have := congrArg List.head? h; revert this; rw [List.head?_cons]; decide) ?_ ?_
    (y := " /l %i in (1,1,2) do one".toList) (u := " one".toList) (w1 := [' ']) (w2 := [' ']) (w3 := [' ']) (w4 := [' ']) (xi := "in".toList)
    (i := "in".toList) (xd := "do".toList) (d := "do".toList) (set := "1,1,2".toList) (set' := "1,1,2".toList) (code := "one".toList)
    (ta := ['1']) (ts := ['1']) (tb := ['2']) (ss := ["/l".toList]) (v := 'i') (strict := true) (na := 1) (ns := 1) (nb := 2)
    ⟨[], "for".toList, rfl, by simp [Txt.Lead], by decide, by decide⟩ ?_ (.last (ss := []) (by simp) (.l (by decide)))
    (by decide) (by decide) (by decide) (.word (by decide) (by decide) (by decide) (by decide)) (by decide) (by decide) (by decide) ?_
    (by decide) (.word (by decide) (by decide) (by decide) (by decide)) (by decide) (.inr ⟨' ', _, rfl, by decide⟩) ?_ ?_ rfl (by decide +kernel) ?_
    ?_ ?_ ?_ (by decide) (by decide) (by decide) rfl (by simp) ?_ ho he rfl
  · exact .clause (w := []) (t := "for /l %i in ".toList) (b := "1,1,2".toList) (c := " do one".toList) (by simp) word (by decide) body (.text (by decide))
  · intro c hc
    simp only [SrcLine.cmds, SrcLine.tail, pipes, List.map_nil, List.flatMap_nil, List.append_nil, List.mem_cons, List.not_mem_nil, or_false] at hc
    subst hc
    exact ⟨.clause (w := []) (t := "for /l %i in ".toList) (b := "1,1,2".toList) (c := " do one".toList) (by simp) word (by decide)
        (by decide) body (.line (.last (NoSign.none (t := " do one".toList) (by decide))) noParens_do), by decide⟩
  · exact .cons (w := [' ']) (x := "/l".toList) (by decide) (.word (by decide) (by decide) (by decide) (by decide)) (.inr ⟨' ', _, rfl, by decide⟩) .nil
  · exact .last (.plain (w := []) (t := "1,1,2".toList) (by simp) (by decide) (by decide) (by decide))
  · exact .command (w := [' ']) (l := "one".toList) (by decide)
      (.plain (w := []) (t := "one".toList) (by simp) (by decide) (by decide) (by decide)) (by decide)
  · unfold LoopName; decide
  · exact .cons (w := []) (x := ['1']) (b := ',') (rest := "1,2".toList) (by simp) (num '1' (by decide)) (by decide)
      (.cons (w := []) (x := ['1']) (b := ',') (rest := "2".toList) (by simp) (num '1' (by decide)) (by decide)
        (.last (w := []) (by simp) (num '2' (by decide))))
  · exact .plain (.dec (c := '1') (ds := []) (by decide) (by decide))
  · exact .plain (.dec (c := '1') (ds := []) (by decide) (by decide))
  · exact .plain (.dec (c := '2') (ds := []) (by decide) (by decide))
  · have hp : (progression 1 1 2).map (fun n => ('i', intText n)) = [('i', ['1']), ('i', ['2'])] := by decide +kernel
    rw [hp]
    exact .round (.go rfl (forHost_wrapped lc) (forHost_block lc _ _ _) .stop) (.round (.go rfl (forHost_wrapped lc) (forHost_block lc _ _ _) .stop) .over)

/-- All hypotheses of `C116_for_set_partial` are met. -/
example (lc : LibC) (sc : Script) {io : Io (List Char)} (ho : io.outOwn = true) (he : io.errOut = false) :
    ∃ N, ∀ n, N ≤ n → (forHost lc).lineText n "for %i in (x,y) do one".toList ⟨([], sc), 5, .no, io⟩ =
      some ⟨([("set".toList, []), ("one".toList, io.streams.2.1), ("set".toList, "i=y".toList), ("one".toList, io.streams.2.1),
        ("set".toList, "i=x".toList)], sc), 0, .no, io⟩ := by
  have word : BlockWord "for %i in ".toList := ⟨"for".toList, ' ', "%i in ".toList, rfl, by unfold Blank; decide, by decide⟩
  have body : Body false "x,y".toList := .last (.plain (w := []) (t := "x,y".toList) (by simp) (by decide) (by decide) (by decide))
  refine C116_for_set_partial lc (h := forHost lc) (e' := 0) (s := io.streams) (note := fun _ x => x) (other := fun _ x => (x, .error 1))
    (x' := ([("one".toList, io.streams.2.1), ("set".toList, "i=y".toList), ("one".toList, io.streams.2.1), ("set".toList, "i=x".toList)], sc)) rfl
    (cx := fun _ => ⟨false, fun _ => none, fun _ _ _ => [], fun _ => .ok none⟩) rfl rfl (q := nameSpecial) (by decide) (by decide) (by decide) (by decide)
    (l := ⟨("for %i in (x,y) do one".toList, []), []⟩) (items := fun _ => [.text "for %i in (x,y)".toList, .text " do one".toList]) (by decide)
    (by intro r h; have := congrArg List.head? h; revert this; rw [List.head?_cons]; decide) ?_ ?_
    (y := " %i in (x,y) do one".toList) (u := " one".toList) (w1 := [' ']) (w2 := [' ']) (w3 := [' ']) (w4 := [' ']) (xi := "in".toList)
    (i := "in".toList) (xd := "do".toList) (d := "do".toList) (set := "x,y".toList) (set' := "x,y".toList) (code := "one".toList)
    (v := 'i') (strict := true) (cs := [['x'], ['y']])
    ⟨[], "for".toList, rfl, by simp [Txt.Lead], by decide, by decide⟩ rfl
    (by decide) (by decide) (by decide) (.word (by decide) (by decide) (by decide) (by decide)) (by decide) (by decide) (by decide) ?_
    (by decide) (.word (by decide) (by decide) (by decide) (by decide)) (by decide) (.inr ⟨' ', _, rfl, by decide⟩) ?_ ?_ rfl (by decide +kernel) ?_
    (by decide) rfl (by simp) ?_ ho he rfl
  · exact .clause (w := []) (t := "for %i in ".toList) (b := "x,y".toList) (c := " do one".toList) (by simp) word (by decide) body (.text (by decide))
  · intro c hc
    simp only [SrcLine.cmds, SrcLine.tail, pipes, List.map_nil, List.flatMap_nil, List.append_nil, List.mem_cons, List.not_mem_nil, or_false] at hc
    subst hc
    exact ⟨.clause (w := []) (t := "for %i in ".toList) (b := "x,y".toList) (c := " do one".toList) (by simp) word (by decide)
        (by decide) body (.line (.last (NoSign.none (t := " do one".toList) (by decide))) noParens_do), by decide⟩
  · exact .last (.plain (w := []) (t := "x,y".toList) (by simp) (by decide) (by decide) (by decide))
  · exact .command (w := [' ']) (l := "one".toList) (by decide)
      (.plain (w := []) (t := "one".toList) (by simp) (by decide) (by decide) (by decide)) (by decide)
  · unfold LoopName; decide
  · exact .cons (w := []) (raw := ['x']) (rest := ",y".toList) (by simp) ⟨_, _, rfl, by decide⟩ (paramEnd_chunk (by decide +kernel))
      (.cons (w := [',']) (raw := ['y']) (rest := []) (by decide) ⟨_, _, rfl, by decide⟩ (paramEnd_chunk (by decide +kernel)) (.nil (by simp)))
  · exact .round (.go rfl (forHost_wrapped lc) (forHost_block lc _ _ _) .stop) (.round (.go rfl (forHost_wrapped lc) (forHost_block lc _ _ _) .stop) .over)

end PBat.Prog
