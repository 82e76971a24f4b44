import Verif.Model.Words
import Verif.Spec.Words
import Verif.Props.C21
import Verif.Props.C26
import Verif.Props.C49
import Verif.Props.C113
/-
C115: the first word of a command decides whether it is IF, FOR or CALL.
-/
namespace PBat.Prog
open PBat PBat.Spec PBat.Spec.Prog PBat.Spec.Txt

variable {ν W τ : Type}

theorem default_found (lc : LibC) (r : List Char) :
    ∃ o, (mapInfo lc defaultCmds).lookup r = .ok o ∧ ∀ e, o = some e → e ∈ defaultCmds ∧ Calls r e := by
  refine C21_sound lc defaultCmds [] (by unfold Distinct; decide +kernel) ⟨by decide, by decide, trivial⟩ ?_ r
  have h : defaultCmds.all (fun e => e.limit == 0 || e.limit == e.name.length) = true := by decide +kernel
  intro x hx
  have := List.all_eq_true.1 h x hx
  simpa [Registered] using this

theorem default_only {e : CmdEntry String} (he : e ∈ defaultCmds) :
    (e.info = "pBat_CmdIf" → e = ⟨"IF".toList, 2, "pBat_CmdIf"⟩) ∧ (e.info = "pBat_CmdFor" → e = ⟨"FOR".toList, 3, "pBat_CmdFor"⟩) ∧
      (e.info = "pBat_CmdCall" → e = ⟨"CALL".toList, 4, "pBat_CmdCall"⟩ ∨ e = ⟨"CALL:".toList, 0, "pBat_CmdCall"⟩) := by
  have h : defaultCmds.all (fun e => decide ((e.info = "pBat_CmdIf" → e = ⟨"IF".toList, 2, "pBat_CmdIf"⟩) ∧
      (e.info = "pBat_CmdFor" → e = ⟨"FOR".toList, 3, "pBat_CmdFor"⟩) ∧
      (e.info = "pBat_CmdCall" → e = ⟨"CALL".toList, 4, "pBat_CmdCall"⟩ ∨ e = ⟨"CALL:".toList, 0, "pBat_CmdCall"⟩))) = true := by decide +kernel
  exact of_decide_eq_true (List.all_eq_true.1 h e he)

theorem fold_length {v k : List Char} (h : fold v = k) : v.length = k.length := by
  rw [← h, fold, List.length_map]

theorem word_drop {v k y : List Char} {n : Nat} (h : fold v = k) (hn : k.length = n) : (v ++ y).drop n = y := by
  rw [List.drop_append_of_le_length (by rw [fold_length h, hn]; exact Nat.le_refl _),
    List.drop_of_length_le (by rw [fold_length h, hn]; exact Nat.le_refl _), List.nil_append]

/-- A word of letters is neither blank nor the beginning of a block. -/
theorem word_bare {v k y : List Char} (h : fold v = k) (hk : ∃ c r, k = c :: r ∧ 'a' ≤ c ∧ c ≤ 'z') :
    Bare (v ++ y) ∧ (v ++ y).head? ≠ some '(' := by
  obtain ⟨c, r, rfl, h1, h2⟩ := hk
  cases v with
  | nil => cases h
  | cons d v =>
    have hd : d.toLower = c := (List.cons.inj h).1
    have key : ∀ b ∈ [' ', '\t', '\n', '\r', '\x0b', '\x0c', ',', ';', '=', '@', '('], d ≠ b := by
      rintro b hb rfl
      rw [← hd] at h1 h2
      have : ∀ b ∈ [' ', '\t', '\n', '\r', '\x0b', '\x0c', ',', ';', '=', '@', '('], ¬ ('a' ≤ b.toLower ∧ b.toLower ≤ 'z') := by decide
      exact this _ hb ⟨h1, h2⟩
    refine ⟨?_, by simpa using key '(' (by decide)⟩
    intro b hb
    cases hb
    refine ⟨?_, key '@' (by decide)⟩
    unfold Blank
    have := key
    simp only [List.mem_cons, List.not_mem_nil, or_false, forall_eq_or_imp, forall_eq] at this
    simp_all

theorem skipBlanks_unindent (y : List Char) : skipBlanks y = unindent y := by
  induction y with
  | nil => rfl
  | cons c y ih =>
    by_cases hc : Blank c
    · rw [unindent, List.dropWhile_cons_of_pos (by simpa using hc), skipBlanks, if_pos (by simpa [isDelim_iff] using hc), ih, unindent]
    · rw [unindent, List.dropWhile_cons_of_neg (by simpa using hc), skipBlanks, if_neg (by simpa [isDelim_iff] using hc)]

section
variable (lc : LibC) {h : Host ν W τ} (hcls : h.cls = tableCls (mapInfo lc defaultCmds))
include hcls

/-- A command is taken for IF, with the text `y` to work on, exactly if its first word is IF, in any case, and `y` is what follows. -/
theorem C115_if (c y : List Char) : IsIf h c y ↔ FirstWord "if".toList c y := by
  constructor
  · rintro ⟨w, r, yes, no, rfl, hw, hr, hp, hc⟩
    rw [hcls] at hc
    unfold tableCls at hc
    obtain ⟨o, ho, hf⟩ := default_found lc r
    rw [ho] at hc
    cases o with
    | none => cases hc
    | some e =>
      obtain ⟨hm, v, rest, rfl, hv, hend⟩ := hf e rfl
      simp only at hc
      split at hc
      · next hi =>
        obtain rfl := (default_only hm).1 hi
        have hk : fold v = "if".toList := hv
        have hy := (Cmd.iff.inj hc).1
        rw [word_drop (n := 2) hk rfl] at hy
        subst hy
        exact ⟨w, v, rfl, hw, hk, hend.resolve_left (by decide)⟩
      · split at hc
        · cases hc
        · split at hc <;> cases hc
  · rintro ⟨w, v, rfl, hw, hv, hy⟩
    obtain ⟨h1, h2⟩ := word_bare (y := y) hv ⟨'i', ['f'], rfl, by decide, by decide⟩
    refine ⟨w, v ++ y, [], none, rfl, hw, h1, h2, ?_⟩
    have hl := C21_builtin_partial lc ⟨"IF".toList, 2, "pBat_CmdIf"⟩ (by decide +kernel) v y hv (.inr hy) (fun _ => by decide)
    rw [hcls]
    unfold tableCls
    rw [hl]
    simp only [if_true, word_drop (n := 2) hv rfl]

/-- The same for FOR. -/
theorem C115_for (c y : List Char) : IsFor h c y ↔ FirstWord "for".toList c y := by
  constructor
  · rintro ⟨w, r, xs, ty, r', rfl, hw, hr, hp, hc⟩
    rw [hcls] at hc
    unfold tableCls at hc
    obtain ⟨o, ho, hf⟩ := default_found lc r
    rw [ho] at hc
    cases o with
    | none => cases hc
    | some e =>
      obtain ⟨hm, v, rest, rfl, hv, hend⟩ := hf e rfl
      simp only at hc
      split at hc
      · cases hc
      · split at hc
        · next hi =>
          obtain rfl := (default_only hm).2.1 hi
          have hk : fold v = "for".toList := hv
          have hy : List.drop 3 (v ++ rest) = y := by simp at hc; exact hc.2.2.2
          rw [word_drop (n := 3) hk rfl] at hy
          subst hy
          exact ⟨w, v, rfl, hw, hk, hend.resolve_left (by decide)⟩
        · split at hc <;> cases hc
  · rintro ⟨w, v, rfl, hw, hv, hy⟩
    obtain ⟨h1, h2⟩ := word_bare (y := y) hv ⟨'f', ['o', 'r'], rfl, by decide, by decide⟩
    refine ⟨w, v ++ y, [], .none, {}, rfl, hw, h1, h2, ?_⟩
    have hl := C21_builtin_partial lc ⟨"FOR".toList, 3, "pBat_CmdFor"⟩ (by decide +kernel) v y hv (.inr hy) (fun _ => by decide)
    rw [hcls]
    unfold tableCls
    rw [hl]
    simp only [if_true, word_drop (n := 3) hv rfl]
    rw [if_neg (by decide)]

/-- Every other command is run on its own: as a block, as CALL, or as a command that does not touch the rest of its line. -/
theorem C115_usual (c : List Char) (h1 : ∀ y, ¬ FirstWord "if".toList c y) (h2 : ∀ y, ¬ FirstWord "for".toList c y) : Usual h c := by
  rintro w r rfl hw hr
  by_cases hp : r.head? = some '('
  · exact .inl hp
  right
  have k1 : ∀ y yes no, h.cls r ≠ .iff y yes no := fun y yes no hc => h1 y ((C115_if lc hcls _ y).1 ⟨w, r, yes, no, rfl, hw, hr, hp, hc⟩)
  have k2 : ∀ y, h.cls r ≠ .loop [] [[(.none, {}, .simple y)]] := fun y hc =>
    h2 y ((C115_for lc hcls _ y).1 ⟨w, r, [], .none, {}, rfl, hw, hr, hp, hc⟩)
  rw [hcls] at k1 k2 ⊢
  unfold tableCls at k1 k2 ⊢
  revert k1 k2
  cases (mapInfo lc defaultCmds).lookup r with
  | ub => intro _ _; exact .inl rfl
  | hang => intro _ _; exact .inl rfl
  | ok o =>
    cases o with
    | none => intro _ _; exact .inl rfl
    | some e =>
      simp only
      split
      · intro k1 _; exact absurd rfl (k1 _ _ _)
      · split
        · intro _ k2; exact absurd rfl (k2 _)
        · split
          · intro _ _; exact .inr ⟨_, rfl⟩
          · intro _ _; exact .inl rfl

/-- CALL, followed by a blank other than `;`, or by a label.  Partial: with `;` the search takes another way, see `C21_call_semicolon`. -/
theorem C115_call_partial (w v y : List Char) (hw : Lead w) (hv : fold v = "call".toList) (hy : (CmdEnd y ∧ y.head? ≠ some ';') ∨ y.head? = some ':') :
    h.textCmd (w ++ (v ++ y)) = .call (unindent y) := by
  obtain ⟨h1, h2⟩ := word_bare (y := y) hv ⟨'c', ['a', 'l', 'l'], rfl, by decide, by decide⟩
  rw [textCmd_lead h hw h1, if_neg h2, hcls]
  have hl : ∃ e : CmdEntry String, (mapInfo lc defaultCmds).lookup (v ++ y) = .ok (some e) ∧ e.info = "pBat_CmdCall" := by
    rcases hy with ⟨hy, hs⟩ | hy
    · exact ⟨_, C21_builtin_partial lc ⟨"CALL".toList, 4, "pBat_CmdCall"⟩ (by decide +kernel) v y hv (.inr hy) (fun h => absurd h hs), rfl⟩
    · cases y with
      | nil => cases hy
      | cons c y =>
        cases hy
        refine ⟨⟨"CALL:".toList, 0, "pBat_CmdCall"⟩, ?_, rfl⟩
        have := C21_builtin_partial lc ⟨"CALL:".toList, 0, "pBat_CmdCall"⟩ (by decide +kernel) (v ++ [':']) y
          (by simp only [fold, List.map_append] at hv ⊢; rw [hv]; decide) (.inl rfl) (fun _ => by decide)
        simpa using this
  obtain ⟨e, hl, hi⟩ := hl
  unfold tableCls
  rw [hl]
  simp only [hi]
  rw [if_neg (by decide), if_neg (by decide), if_pos trivial, word_drop (n := 4) hv rfl, skipBlanks_unindent]

end

/-- Conditions that ask for a variable, a file or the error level, with or without NOT. -/
theorem object_cond {q : Char → Bool} (hq : q '"' = true) (hqc : q '^' = true) (w : IfWorld) (u : Option Int) {k o n : List Char} (neg : Bool)
    {test : List Char → Bool} (hk : ObjTest w k test) (ho : o.length ≤ 4095) {line rest : List Char} (hn : fold n = "not".toList)
    (hl : ParamPrefix q line (if neg then [n, k, o] else [k, o]) rest) (hex : ∀ a ∈ (if neg then [n, k, o] else [k, o]), w.ex (escape q a) = .ok a) :
    ifCond w u line = .ok (.value (test o != neg) rest) := by
  have hw := objTest_words hk
  cases neg with
  | false =>
    simp only [Bool.false_eq_true, if_false] at hl hex
    obtain ⟨r, hr, -, hp⟩ := nextParam_prefix hq hqc w.ex hl (hex _ (by simp))
    unfold ifCond
    rw [hr]
    simp only
    rw [if_neg (fun e => hw.1 ((stricmp_zero _ _).1 e)), ifNot, if_neg (fun e => hw.2 ((stricmp_zero _ _).1 e)), ifKeyword_object w false u hk,
      ifObject_prefix hq hqc w false test (hp (by simp)) (hex _ (by simp)) ho]
  | true =>
    simp only [if_true] at hl hex
    obtain ⟨r, hr, -, hp⟩ := nextParam_prefix hq hqc w.ex hl (hex _ (by simp))
    obtain ⟨r2, hr2, -, hp2⟩ := nextParam_prefix hq hqc w.ex (hp (by simp)) (hex _ (by simp))
    unfold ifCond
    rw [hr]
    simp only
    rw [fold_take hn 10 (by decide), if_neg (fun e => absurd ((stricmp_zero _ _).1 e) (by rw [hn]; decide)), ifNot,
      if_pos ((stricmp_zero _ _).2 (by rw [hn]; decide)), hr2]
    simp only
    rw [ifKeyword_object w true u hk, ifObject_prefix hq hqc w true test (hp2 (by simp)) (hex _ (by simp)) ho]

/-- From the text of the line to its effect, for lines beginning with `if [not] defined`, `if [not] exist` and `if [not] errorlevel`: the
command or block behind the object runs, and the rest of the line with it, exactly if the answer is yes (no, with NOT); otherwise nothing does. -/
theorem C115_if_object (lc : LibC) {h : Host ν W τ} (hcls : h.cls = tableCls (mapInfo lc defaultCmds)) {iw : W × Script → Int → IfWorld}
    {v : Option Int} (hcond : h.cond = tableCond iw v) {q : Char → Bool} (hq : q '"' = true) (hqc : q '^' = true)
    {t : List Char} {l : SrcLine} {items : List Char → List RedirItem} {y k o n rest code : List Char} {neg : Bool} {test : List Char → Bool}
    {strict : Bool} {s : τ × τ × τ} {x x' : W × Script} {e e' : Int} {a : Abort} (ht : unindent t = l.text) (hl : ∀ r, unindent t ≠ ':' :: r)
    (hw : WellFormed l.first.1 l.tail) (hi : ∀ c ∈ l.cmds, RedirCommand nameSpecial c (items c) ∧ Once (items c))
    (hif : FirstWord "if".toList (textOf (items l.first.1)) y) (hk : ObjTest (iw x e) k test) (ho : o.length ≤ 4095) (hn : fold n = "not".toList)
    (hy : ParamPrefix q y (if neg then [n, k, o] else [k, o]) rest)
    (hex : ∀ a ∈ (if neg then [n, k, o] else [k, o]), (iw x e).ex (escape q a) = .ok a) (hc : Governs strict rest code)
    {rd : List Char → Piece} (hrd : rd = fun c => (redirs (h.full x.1) (items c), textOf (items c)))
    (hyes : test o = !neg → Does nameSpecial h (.parts ((.seq, ((rd l.first.1).1, '(' :: (code ++ [')'])), l.first.2.map rd) ::
      l.more.map (fun p => (p.1, rd p.2.1, p.2.2.map rd)))) s x e x' e' a)
    (hno : test o = neg → x' = x ∧ a = .no) {io : Io τ} (hoo : io.outOwn = true) (he : io.errOut = false) (hs : io.streams = s) :
    ∃ N, ∀ n, N ≤ n → h.lineText n t ⟨x, e, .no, io⟩ = some ⟨x', 0, a, io⟩ := by
  subst hrd
  have hval := object_cond hq hqc (iw x e) v neg hk ho hn hy hex
  have hcd : h.cond y x e = (if test o != neg then .yes else .no, rest) := by
    rw [hcond]
    unfold tableCond
    rw [hval]
  have hIs := (C115_if lc hcls _ y).2 hif
  refine C113_line_partial h (.line ht hl hw hi ?_) hoo he hs
  by_cases hb : test o = neg
  · obtain ⟨rfl, rfl⟩ := hno hb
    rw [hb, bne_self_eq_false, if_neg (by decide)] at hcd
    exact .nothing (strict := strict) rfl hIs hcd (.one hc)
  · have hb' : test o = !neg := by cases h1 : test o <;> cases neg <;> simp_all
    have hne : (test o != neg) = true := by simpa using hb
    rw [hne] at hcd
    exact .test (b := true) (strict := strict) (no := none) rfl hIs hcd (.one hc) ⟨rfl, rfl⟩ (hyes hb')

theorem if_effect (lc : LibC) {h : Host ν W τ} (hcls : h.cls = tableCls (mapInfo lc defaultCmds)) {iw : W × Script → Int → IfWorld}
    {v : Option Int} (hcond : h.cond = tableCond iw v)
    {t : List Char} {l : SrcLine} {items : List Char → List RedirItem} {y rest yes : List Char} {no : Option (List Char)} {b : Bool} {P : Prop}
    {strict : Bool} {s : τ × τ × τ} {x x' : W × Script} {e : Int} {a : Abort} (ht : unindent t = l.text) (hl : ∀ r, unindent t ≠ ':' :: r)
    (hw : WellFormed l.first.1 l.tail) (hi : ∀ c ∈ l.cmds, RedirCommand nameSpecial c (items c) ∧ Once (items c))
    (hif : FirstWord "if".toList (textOf (items l.first.1)) y) (hval : ifCond (iw x e) v y = .ok (.value b rest)) (hb : b = true ↔ P)
    (hc : IfCode strict rest yes no) {rd : List Char → Txt.Piece} (hrd : rd = fun c => (redirs (h.full x.1) (items c), textOf (items c)))
    (hd : IfEffect nameSpecial h (rd l.first.1, l.first.2.map rd) (l.more.map (fun p => (p.1, rd p.2.1, p.2.2.map rd))) s x e yes no P x' a)
    {io : Io τ} (hoo : io.outOwn = true) (he : io.errOut = false) (hs : io.streams = s) :
    ∃ N, ∀ n, N ≤ n → h.lineText n t ⟨x, e, .no, io⟩ = some ⟨x', 0, a, io⟩ := by
  subst hrd
  have hcd : h.cond y x e = (if b then .yes else .no, rest) := by
    rw [hcond]
    unfold tableCond
    rw [hval]
  have hIs := (C115_if lc hcls _ y).2 hif
  refine C113_line_partial h (.line ht hl hw hi ?_) hoo he hs
  cases hd with
  | runs hp hd =>
    rw [hb.2 hp] at hcd
    exact .test (b := true) (strict := strict) (no := none) rfl hIs hcd hc ⟨rfl, rfl⟩ hd
  | nothing hp =>
    rw [Bool.eq_false_iff.2 (fun k => hp (hb.1 k))] at hcd
    exact .nothing (strict := strict) rfl hIs hcd hc
  | alone hp hd =>
    rw [hb.2 hp] at hcd
    exact .alone (strict := strict) rfl hIs hcd hc hd
  | otherwise hp hd =>
    rw [Bool.eq_false_iff.2 (fun k => hp (hb.1 k))] at hcd
    exact .test (b := false) (strict := strict) rfl hIs hcd hc rfl hd

/-- From the text of the line to its effect, for `if [/i] [not] left==right`, one of the texts beginning as no number does: what IF governs runs
exactly if the texts are the same (with /i but for case; with NOT exactly if they are not), what is behind ELSE otherwise. -/
theorem C115_if_same (lc : LibC) {h : Host ν W τ} (hcls : h.cls = tableCls (mapInfo lc defaultCmds)) {iw : W × Script → Int → IfWorld}
    {v : Option Int} (hcond : h.cond = tableCond iw v) {q : Char → Bool} (hq : q '"' = true) (hqc : q '^' = true)
    {t : List Char} {l : SrcLine} {items : List Char → List RedirItem} {y rest yes left right : List Char} {no : Option (List Char)}
    {os : List (List Char)} {ci neg strict : Bool} {s : τ × τ × τ} {x x' : W × Script} {e : Int} {a : Abort} (ht : unindent t = l.text)
    (hl : ∀ r, unindent t ≠ ':' :: r) (hw : WellFormed l.first.1 l.tail) (hi : ∀ c ∈ l.cmds, RedirCommand nameSpecial c (items c) ∧ Once (items c))
    (hif : FirstWord "if".toList (textOf (items l.first.1)) y) (ho : Options os ci neg) (hne : left ≠ []) (hle : '=' ∉ left)
    (hlq : left.getLast? ≠ some '"') (hpl : PlainOperand (left ++ '=' :: '=' :: right)) (hword : WordOperand left ∨ WordOperand right)
    (hy : ParamPrefix q y (os ++ [left ++ '=' :: '=' :: right]) rest)
    (hex : ∀ z ∈ os ++ [left ++ '=' :: '=' :: right], (iw x e).ex (escape q z) = .ok z) (hc : IfCode strict rest yes no)
    {rd : List Char → Txt.Piece} (hrd : rd = fun c => (redirs (h.full x.1) (items c), textOf (items c)))
    (hd : IfEffect nameSpecial h (rd l.first.1, l.first.2.map rd) (l.more.map (fun p => (p.1, rd p.2.1, p.2.2.map rd))) s x e yes no
      (cmpText ci left = cmpText ci right ↔ neg = false) x' a)
    {io : Io τ} (hoo : io.outOwn = true) (he : io.errOut = false) (hs : io.streams = s) :
    ∃ N, ∀ n, N ≤ n → h.lineText n t ⟨x, e, .no, io⟩ = some ⟨x', 0, a, io⟩ := by
  obtain ⟨r, hr, hrt⟩ := C26_text (iw x e).strtod hword ci (.same rfl)
  refine if_effect lc hcls hcond ht hl hw hi hif (C49_same hq hqc (iw x e) v ho hne hle hlq hpl hy hex) ?_ hc hrd hd hoo he hs
  have hch : cmpHolds (iw x e).strtod "==".toList left right ci = r := by unfold cmpHolds; rw [hr]; rfl
  rw [hch, ← show r = true ↔ cmpText ci left = cmpText ci right from hrt]
  cases r <;> cases neg <;> simp

/-- The same for `if [/i] left op right` with numbers, the operator in any case; NOT has no effect here, see `C49_not_ignored`. -/
theorem C115_if_number (lc : LibC) {h : Host ν W τ} (hcls : h.cls = tableCls (mapInfo lc defaultCmds)) {iw : W × Script → Int → IfWorld}
    {v : Option Int} (hcond : h.cond = tableCond iw v) {q : Char → Bool} (hq : q '"' = true) (hqc : q '^' = true)
    {t : List Char} {l : SrcLine} {items : List Char → List RedirItem} {y rest yes left op right : List Char} {no : Option (List Char)} {c : Cmp}
    {m n : Rat} {os : List (List Char)} {ci strict : Bool} {s : τ × τ × τ} {x x' : W × Script} {e : Int} {a : Abort} (ht : unindent t = l.text)
    (hl : ∀ r, unindent t ≠ ':' :: r) (hw : WellFormed l.first.1 l.tail) (hi : ∀ c ∈ l.cmds, RedirCommand nameSpecial c (items c) ∧ Once (items c))
    (hif : FirstWord "if".toList (textOf (items l.first.1)) y) (ho : Options os ci false) (hop : CmpName op c) (hpl : PlainOperand left)
    (hle : '=' ∉ left) (hm : NumOperand left m) (hn : NumOperand right n) (hy : ParamPrefix q y (os ++ [left, op, right]) rest)
    (hex : ∀ z ∈ os ++ [left, op, right], (iw x e).ex (escape q z) = .ok z) (hc : IfCode strict rest yes no)
    {rd : List Char → Txt.Piece} (hrd : rd = fun c => (redirs (h.full x.1) (items c), textOf (items c)))
    (hd : IfEffect nameSpecial h (rd l.first.1, l.first.2.map rd) (l.more.map (fun p => (p.1, rd p.2.1, p.2.2.map rd))) s x e yes no
      (c.holds (m < n) (m = n) (n < m)) x' a)
    {io : Io τ} (hoo : io.outOwn = true) (he : io.errOut = false) (hs : io.streams = s) :
    ∃ N, ∀ n, N ≤ n → h.lineText n t ⟨x, e, .no, io⟩ = some ⟨x', 0, a, io⟩ := by
  obtain ⟨r, hr, hrt⟩ := C26_numbers (iw x e).strtod hm hn [] [] (by simp) (by simp) ci hop
  rw [List.append_nil, List.append_nil] at hr
  refine if_effect lc hcls hcond ht hl hw hi hif (C49_not_ignored hq hqc (iw x e) v ho hop hpl hle hy hex) ?_ hc hrd hd hoo he hs
  have hch : cmpHolds (iw x e).strtod op left right ci = r := by unfold cmpHolds; rw [hr]; rfl
  rw [hch, hrt]

/-! ### Examples -/

/-- The hypotheses are met by `@If Not Defined x (one)`. -/
example : FirstWord "if".toList "@If Not Defined x (one)".toList " Not Defined x (one)".toList :=
  ⟨['@'], "If".toList, rfl, by simp [Txt.Lead], by decide, by decide⟩

/-- `ifx` and `if(` are not IF. -/
example (lc : LibC) : ["ifx defined a one".toList, "if(".toList].map (tableCls (ν := Unit) (mapInfo lc defaultCmds)) =
    [.simple "ifx defined a one".toList, .simple "if(".toList] := by
  rw [default_table]
  have h : ["ifx defined a one".toList, "if(".toList].map (putSeed (sortBy (fun x y => stricmp x.name y.name) defaultCmds) 0 (defaultCmds.length + 1) .leaf).lookup
      = [.ok none, .ok none] := by decide +kernel
  simp only [List.map_cons, List.map_nil, List.cons.injEq, and_true] at h ⊢
  unfold tableCls
  rw [h.1, h.2]
  exact ⟨rfl, rfl⟩

/-- Commands run with the table of pBat: `a` is defined and nothing else. -/
def wordsHost (lc : LibC) : Host Unit (List (List Char × List Char)) (List Char) :=
  { demoCall with
    cls := tableCls (mapInfo lc defaultCmds)
    cond := tableCond (fun _ _ => ⟨.ok, fun n => n == ['a'], fun _ => false, ['0'], sampleStrtod⟩) none }

/-- On the model itself. -/
example (lc : LibC) : ["@If Not Defined x (one) >f & two".toList, "if defined x one & two".toList, "IF defined a one& two".toList].map (fun l =>
      ((wordsHost lc).lineText 9 l ⟨([], ⟨[], [], 0, 0⟩), 5, .no, ⟨"in".toList, "out".toList, "err".toList, true, false, []⟩⟩).map
        (fun s => (s.world.1, s.err))) =
    [some ([("two".toList, "out".toList), ("one".toList, "f".toList)], 0), some ([], 0),
      some ([("two".toList, "out".toList), ("one".toList, "out".toList)], 0)] := by
  unfold wordsHost
  rw [default_table]
  decide +kernel

/-- What IF governs in the examples. -/
theorem wordsHost_one (lc : LibC) (sc : Script) (s : List Char × List Char × List Char) : Does nameSpecial (wordsHost lc)
    (.parts [(.seq, (({}, "(one)".toList), []))]) s ([], sc) 5 ([("one".toList, s.2.1)], sc) 0 .no := by
  have simple : (wordsHost lc).cls "one".toList = .simple "one".toList := by
    show tableCls (mapInfo lc defaultCmds) _ = _
    have h : (putSeed (sortBy (fun x y => stricmp x.name y.name) defaultCmds) 0 (defaultCmds.length + 1) .leaf).lookup "one".toList = .ok none := by
      decide +kernel
    unfold tableCls
    rw [default_table, h]
  have regular : Regular (wordsHost lc) (({}, "one".toList), []) := by
    intro d hd
    obtain rfl := List.mem_singleton.1 hd
    exact ⟨usual_plain simple, .inl ⟨rfl, rfl⟩⟩
  refine .go (x' := ([("one".toList, s.2.1)], sc)) (e' := 0) rfl ?_ ?_ .stop
  · intro d hd
    obtain rfl := List.mem_singleton.1 hd
    exact ⟨usual_wrap _ "one".toList, .inl ⟨rfl, rfl⟩⟩
  · refine .block (w := []) (b := "one".toList) (v := []) (rs := ["one".toList]) (strict := true) (by simp [Txt.Lead])
      (.last (.one (.plain (w := []) (t := "one".toList) (by simp) (by decide) (by decide) (by decide)))) (by decide) (by decide) ?_
    refine .next (l := "one".toList) (ls := []) (a := .no) ?_ (.inl rfl) .end
    refine .line (l := ⟨("one".toList, []), []⟩) (items := fun c => [.text c]) (by decide)
      (by intro r h; have := congrArg List.head? h; revert this; rw [List.head?_cons]; decide) (.plain (by decide)) ?_ ?_
    · intro c hc
      simp only [SrcLine.cmds, SrcLine.tail, pipes, List.map_nil, List.flatMap_nil, List.append_nil, List.mem_cons, List.not_mem_nil, or_false] at hc
      subst hc
      exact ⟨.plain (.last (NoSign.none (t := "one".toList) (by decide))) (.inl (by decide)), by decide⟩
    · refine .go rfl regular ?_ .stop
      exact .simple (w := []) (r := "one".toList) (by simp [Txt.Lead]) (by unfold Bare; simp; decide) (by decide) simple rfl

/-- All hypotheses of `C115_if_object` are met. -/
example (lc : LibC) (sc : Script) {io : Io (List Char)} (ho : io.outOwn = true) (he : io.errOut = false) :
    ∃ N, ∀ n, N ≤ n → (wordsHost lc).lineText n "if defined a one".toList ⟨([], sc), 5, .no, io⟩ =
      some ⟨([("one".toList, io.streams.2.1)], sc), 0, .no, io⟩ := by
  refine C115_if_object lc (h := wordsHost lc) (e' := 0) rfl (iw := fun _ _ => ⟨.ok, fun n => n == ['a'], fun _ => false, ['0'], sampleStrtod⟩) (v := none) rfl
    (q := nameSpecial) (by decide) (by decide) (l := ⟨("if defined a one".toList, []), []⟩) (items := fun c => [.text c]) (n := "not".toList)
    (neg := false) (y := " defined a one".toList) (k := "defined".toList) (o := ['a']) (rest := " one".toList) (code := "one".toList)
    (strict := true) (by decide) (by intro r h; have := congrArg List.head? h; revert this; rw [List.head?_cons]; decide) (.plain (by decide)) ?_
    ⟨[], "if".toList, rfl, by simp [Txt.Lead], by decide, by decide⟩ (.defined (by decide)) (by decide) (by decide) ?_ ?_ ?_ rfl ?_
    (by intro h; exact absurd h (by decide)) ho he rfl
  · intro c hc
    simp only [SrcLine.cmds, SrcLine.tail, pipes, List.map_nil, List.flatMap_nil, List.append_nil, List.mem_cons, List.not_mem_nil, or_false] at hc
    subst hc
    exact ⟨.plain (.last (NoSign.none (t := "if defined a one".toList) (by decide))) (.inl (by decide)), by decide⟩
  · simp only [Bool.false_eq_true, if_false]
    exact .cons (w := [' ']) (x := "defined".toList) (b := ' ') (r := "a one".toList) (by decide)
      (.word (by decide) (by decide) (by decide) (by decide)) (by decide)
      (.last (w := [' ']) (x := ['a']) (rest := " one".toList) (by decide) (.word (by decide) (by decide) (by decide) (by decide))
        (.inr ⟨' ', "one".toList, rfl, by decide⟩))
  · intro a ha
    simp only [Bool.false_eq_true, if_false, List.mem_cons, List.not_mem_nil, or_false] at ha
    rcases ha with rfl | rfl <;> decide +kernel
  · exact .command (w := [' ']) (l := "one".toList) (by decide)
      (.plain (w := []) (t := "one".toList) (by simp) (by decide) (by decide) (by decide)) (by decide)
  · intro _
    exact wordsHost_one lc _ _

/-- Comparisons, on the model itself. -/
example (lc : LibC) : ["if /i A==a one & two".toList, "if a==b (one) else two".toList, "if not a==b (one) else two".toList,
      "if 10 gtr 9 one".toList, "if 0x10 lss 9 one".toList].map (fun l =>
      ((wordsHost lc).lineText 9 l ⟨([], ⟨[], [], 0, 0⟩), 5, .no, ⟨"in".toList, "out".toList, "err".toList, true, false, []⟩⟩).map
        (fun s => (s.world.1.map (·.1), s.err))) =
    [some (["two".toList, "one ".toList], 0), some (["two".toList], 0), some (["one".toList], 0), some (["one".toList], 0), some ([], 0)] := by
  unfold wordsHost
  rw [default_table]
  decide +kernel

/-- All hypotheses of `C115_if_same` are met. -/
example (lc : LibC) (sc : Script) {io : Io (List Char)} (ho : io.outOwn = true) (he : io.errOut = false) :
    ∃ N, ∀ n, N ≤ n → (wordsHost lc).lineText n "if not a==b one".toList ⟨([], sc), 5, .no, io⟩ =
      some ⟨([("one".toList, io.streams.2.1)], sc), 0, .no, io⟩ := by
  refine C115_if_same lc (h := wordsHost lc) rfl (iw := fun _ _ => ⟨.ok, fun n => n == ['a'], fun _ => false, ['0'], sampleStrtod⟩) (v := none) rfl
    (q := nameSpecial) (by decide) (by decide) (l := ⟨("if not a==b one".toList, []), []⟩) (items := fun c => [.text c])
    (y := " not a==b one".toList) (left := ['a']) (right := ['b']) (os := ["not".toList]) (ci := false) (neg := true) (rest := " one".toList)
    (yes := "one".toList) (no := none) (strict := true) (by decide)
    (by intro r h; have := congrArg List.head? h; revert this; rw [List.head?_cons]; decide) (.plain (by decide)) ?_
    ⟨[], "if".toList, rfl, by simp [Txt.Lead], by decide, by decide⟩ ?_ (by decide) (by decide) (by decide) ⟨by decide, by decide⟩
    (.inl ⟨'a', [], rfl, by decide, by decide, by decide⟩) ?_ ?_ (.one ?_) rfl (.runs (e' := 0) (by decide) ?_) ho he rfl
  · intro c hc
    simp only [SrcLine.cmds, SrcLine.tail, pipes, List.map_nil, List.flatMap_nil, List.append_nil, List.mem_cons, List.not_mem_nil, or_false] at hc
    subst hc
    exact ⟨.plain (.last (NoSign.none (t := "if not a==b one".toList) (by decide))) (.inl (by decide)), by decide⟩
  · constructor <;> decide
  · exact .cons (w := [' ']) (x := "not".toList) (b := ' ') (r := "a==b one".toList) (by decide)
      (.word (by decide) (by decide) (by decide) (by decide)) (by decide)
      (.last (w := [' ']) (x := "a==b".toList) (rest := " one".toList) (by decide) (.word (by decide) (by decide) (by decide) (by decide))
        (.inr ⟨' ', "one".toList, rfl, by decide⟩))
  · intro a ha
    simp only [List.cons_append, List.nil_append, List.mem_cons, List.not_mem_nil, or_false] at ha
    rcases ha with rfl | rfl <;> decide +kernel
  · exact .command (w := [' ']) (l := "one".toList) (by decide)
      (.plain (w := []) (t := "one".toList) (by simp) (by decide) (by decide) (by decide)) (by decide)
  · exact wordsHost_one lc _ _

/-- The hypotheses of `C115_if_number` on the condition, for `if 10 gtr 9 one`. -/
example : Options [] false false ∧ CmpName "gtr".toList .gtr ∧ PlainOperand "10".toList ∧ '=' ∉ "10".toList ∧ NumOperand "10".toList 10 ∧
    NumOperand "9".toList 9 ∧ ParamPrefix nameSpecial " 10 gtr 9 one".toList ([] ++ ["10".toList, "gtr".toList, "9".toList]) " one".toList := by
  refine ⟨.none, .gtr (by decide), ⟨by decide, by decide⟩, by decide, ?_, ?_, ?_⟩
  · exact .int (.plain (.dec (c := '1') (ds := ['0']) (by decide) (by decide))) (by decide) (by decide)
  · exact .int (.plain (.dec (c := '9') (ds := []) (by decide) (by decide))) (by decide) (by decide)
  · exact .cons (w := [' ']) (x := "10".toList) (b := ' ') (r := "gtr 9 one".toList) (by decide)
      (.word (by decide) (by decide) (by decide) (by decide)) (by decide)
      (.cons (w := [' ']) (x := "gtr".toList) (b := ' ') (r := "9 one".toList) (by decide)
        (.word (by decide) (by decide) (by decide) (by decide)) (by decide)
        (.last (w := [' ']) (x := ['9']) (rest := " one".toList) (by decide) (.word (by decide) (by decide) (by decide) (by decide))
          (.inr ⟨' ', "one".toList, rfl, by decide⟩)))

end PBat.Prog
