import Verif.Spec.Eval
import Verif.Lemmas.Num
import Verif.Lemmas.Args
import Verif.Lemmas.Env
namespace PBat
open Spec

variable {D σ : Type}

/-- Evaluation of a tree with the actions of the parser, operands from left to right. -/
def treeVal (L : FloatOps D) (V : VarOps σ D) (s : σ) : Ex D → Res (σ × Num D)
  | .num x => .ok (s, x)
  | .var n => do
    let x ← varAct L (V.get s n)
    pure (s, x)
  | .un u e => do
    let (s, x) ← treeVal L V s e
    let r ← unAct L u x
    pure (s, r)
  | .bin o a b => do
    let (s, x) ← treeVal L V s a
    let (s, y) ← treeVal L V s b
    let r ← binAct L o x y
    pure (s, r)
  | .asg n e => do
    let (s, x) ← treeVal L V s e
    pure (V.set s n (asDouble L x), x)
  | .call f e => do
    let (s, x) ← treeVal L V s e
    pure (s, callAct L f x)

/-- What may follow an expression of level `n`. -/
def Follows (n : Nat) (rest : List (Tok D)) : Prop :=
  rest = [] ∨ rest.head? = some .rpar ∨ ∃ o, rest.head? = some (.op o) ∧ codePrec o ≤ n

/-- What may be below an expression of level `n` on the stack. -/
def Under (n : Nat) (st : List (Frame D)) : Prop :=
  match st with
  | .bin _ o :: _ => codePrec o < n
  | .un _ :: _ => ∀ o, codePrec o < n
  | .asg _ :: _ => ∀ o, codePrec o < n
  | _ => True

theorem Res.bind_assoc {α β γ : Type} (x : Res α) (f : α → Res β) (g : β → Res γ) :
    (x >>= f) >>= g = x >>= fun a => f a >>= g := by
  cases x <;> rfl

theorem reduce_under {L : FloatOps D} {V : VarOps σ D} {lim n : Nat} {s : σ} {st : List (Frame D)} {x : Num D}
    (h : Under n st) (hl : n ≤ lim) (hex : ∃ o, codePrec o = lim) : reduce L V lim s st x = .ok (s, st, x) := by
  obtain ⟨o', ho'⟩ := hex
  unfold reduce
  split
  · rename_i y o st
    simp only [Under] at h
    rw [if_neg (by omega)]
  · simp only [Under] at h
    have := h o'
    omega
  · simp only [Under] at h
    have := h o'
    omega
  · rfl

/-- The limit a following token sets. -/
def limOf : List (Tok D) → Nat
  | .op o :: _ => codePrec o
  | _ => 0

theorem parseToks_have_bin {L : FloatOps D} {V : VarOps σ D} {n : Nat} {s : σ} {st : List (Frame D)} {x y : Num D} {o : BOp}
    {rest : List (Tok D)} (hn : n ≤ codePrec o) (hr : Follows n rest) :
    parseToks L V s (.bin y o :: st) (.have x) rest =
      binAct L o y x >>= fun r => parseToks L V s st (.have r) rest := by
  rcases hr with rfl | hr | ⟨o', hr, hle⟩
  · simp only [parseToks, parseStep, haveStep, reduce, Nat.zero_le, if_true]
    cases binAct L o y x <;> rfl
  · obtain ⟨t, rfl⟩ : ∃ t, rest = .rpar :: t := by
      cases rest with
      | nil => simp at hr
      | cons a t => simp at hr; exact ⟨t, by rw [hr]⟩
    simp only [parseToks, parseStep, haveStep, reduce, Nat.zero_le, if_true]
    cases binAct L o y x <;> rfl
  · obtain ⟨t, rfl⟩ : ∃ t, rest = .op o' :: t := by
      cases rest with
      | nil => simp at hr
      | cons a t => simp at hr; exact ⟨t, by rw [hr]⟩
    simp only [parseToks, parseStep, haveStep, reduce]
    rw [if_pos (by omega)]
    cases binAct L o y x <;> rfl

theorem parseToks_have_un {L : FloatOps D} {V : VarOps σ D} {n : Nat} {s : σ} {st : List (Frame D)} {x : Num D} {u : UOp}
    {rest : List (Tok D)} (hr : Follows n rest) :
    parseToks L V s (.un u :: st) (.have x) rest =
      unAct L u x >>= fun r => parseToks L V s st (.have r) rest := by
  rcases hr with rfl | hr | ⟨o', hr, hle⟩
  · simp only [parseToks, parseStep, haveStep, reduce]
    cases unAct L u x <;> rfl
  · obtain ⟨t, rfl⟩ : ∃ t, rest = .rpar :: t := by
      cases rest with
      | nil => simp at hr
      | cons a t => simp at hr; exact ⟨t, by rw [hr]⟩
    simp only [parseToks, parseStep, haveStep, reduce]
    cases unAct L u x <;> rfl
  · obtain ⟨t, rfl⟩ : ∃ t, rest = .op o' :: t := by
      cases rest with
      | nil => simp at hr
      | cons a t => simp at hr; exact ⟨t, by rw [hr]⟩
    simp only [parseToks, parseStep, haveStep, reduce]
    cases unAct L u x <;> rfl

theorem parseToks_have_asg {L : FloatOps D} {V : VarOps σ D} {n : Nat} {s : σ} {st : List (Frame D)} {x : Num D} {v : List Char}
    {rest : List (Tok D)} (hr : Follows n rest) :
    parseToks L V s (.asg v :: st) (.have x) rest = parseToks L V (V.set s v (asDouble L x)) st (.have x) rest := by
  rcases hr with rfl | hr | ⟨o', hr, hle⟩
  · simp only [parseToks, parseStep, haveStep, reduce]
  · obtain ⟨t, rfl⟩ : ∃ t, rest = .rpar :: t := by
      cases rest with
      | nil => simp at hr
      | cons a t => simp at hr; exact ⟨t, by rw [hr]⟩
    simp only [parseToks, parseStep, haveStep, reduce]
  · obtain ⟨t, rfl⟩ : ∃ t, rest = .op o' :: t := by
      cases rest with
      | nil => simp at hr
      | cons a t => simp at hr; exact ⟨t, by rw [hr]⟩
    simp only [parseToks, parseStep, haveStep, reduce]

theorem parseToks_var {L : FloatOps D} {V : VarOps σ D} {n : Nat} {s : σ} {st : List (Frame D)} {v : List Char}
    {rest : List (Tok D)} (hr : Follows n rest) :
    parseToks L V s st (.var v) rest = varAct L (V.get s v) >>= fun x => parseToks L V s st (.have x) rest := by
  rcases hr with rfl | hr | ⟨o', hr, hle⟩
  · simp only [parseToks, parseStep]
    cases varAct L (V.get s v) <;> rfl
  · obtain ⟨t, rfl⟩ : ∃ t, rest = .rpar :: t := by
      cases rest with
      | nil => simp at hr
      | cons a t => simp at hr; exact ⟨t, by rw [hr]⟩
    simp only [parseToks, parseStep]
    cases varAct L (V.get s v) <;> rfl
  · obtain ⟨t, rfl⟩ : ∃ t, rest = .op o' :: t := by
      cases rest with
      | nil => simp at hr
      | cons a t => simp at hr; exact ⟨t, by rw [hr]⟩
    simp only [parseToks, parseStep]
    cases varAct L (V.get s v) <;> rfl

/-- The parser evaluates the tree its precedences give. -/
theorem parse_gram {L : FloatOps D} {V : VarOps σ D} {ok : (BOp → Prop) → Prop} {U : BOp → Prop} {n : Nat} {ts : List (Tok D)} {e : Ex D}
    (h : Gram ok codePrec U n ts e) (s : σ) (st : List (Frame D)) (rest : List (Tok D)) (hst : Under n st) (hr : Follows n rest) :
    parseToks L V s st .want (ts ++ rest) = treeVal L V s e >>= fun r => parseToks L V r.1 st (.have r.2) rest := by
  induction h generalizing s st rest with
  | num x => rfl
  | var v =>
    show parseToks L V s st (.var v) rest = _
    rw [parseToks_var hr]
    simp only [treeVal, Res.bind_assoc]
    rfl
  | @par U n U' t e _ _ ih =>
    rw [show (.lpar :: (t ++ [.rpar])) ++ rest = .lpar :: (t ++ .rpar :: rest) by simp]
    show parseToks L V s (.par :: st) .want (t ++ .rpar :: rest) = _
    rw [ih s (.par :: st) (.rpar :: rest) trivial (.inr (.inl rfl))]
    rfl
  | @call U n U' t e f _ _ ih =>
    rw [show (.func f :: .lpar :: (t ++ [.rpar])) ++ rest = .func f :: .lpar :: (t ++ .rpar :: rest) by simp]
    show parseToks L V s (.call f :: st) .want (t ++ .rpar :: rest) = _
    rw [ih s (.call f :: st) (.rpar :: rest) trivial (.inr (.inl rfl))]
    simp only [treeVal, Res.bind_assoc]
    rfl
  | @un U n m t e u hm _ ih =>
    have hf : Follows m rest := by
      rcases hr with h | h | ⟨o, h, _⟩
      · exact .inl h
      · exact .inr (.inl h)
      · exact .inr (.inr ⟨o, h, Nat.le_of_lt (hm o)⟩)
    have h1 : parseToks L V s st .want ((unTok u :: t) ++ rest) = parseToks L V s (.un u :: st) .want (t ++ rest) := by
      cases u <;> rfl
    rw [h1, ih s (.un u :: st) rest hm hf]
    simp only [treeVal, Res.bind_assoc]
    congr 1
    funext r
    rw [parseToks_have_un hf]
    rfl
  | @asg U n m t e v hm _ ih =>
    have hf : Follows m rest := by
      rcases hr with h | h | ⟨o, h, _⟩
      · exact .inl h
      · exact .inr (.inl h)
      · exact .inr (.inr ⟨o, h, Nat.le_of_lt (hm o)⟩)
    show parseToks L V s (.asg v :: st) .want (t ++ rest) = _
    rw [ih s (.asg v :: st) rest hm hf]
    simp only [treeVal, Res.bind_assoc]
    congr 1
    funext r
    rw [parseToks_have_asg hf]
    rfl
  | @bin U n a b ea eb o hn _ _ _ iha ihb =>
    rw [List.append_assoc, List.cons_append,
      iha s st (.op o :: (b ++ rest)) (by
        unfold Under at hst ⊢
        split at hst
        · exact Nat.lt_of_lt_of_le hst hn
        · intro o'; have := hst o'; have := hst o; omega
        · intro o'; have := hst o'; have := hst o; omega
        · trivial) (.inr (.inr ⟨o, rfl, Nat.le_refl _⟩))]
    simp only [treeVal, Res.bind_assoc]
    congr 1
    funext r
    have h1 : parseToks L V r.1 st (.have r.2) (.op o :: (b ++ rest)) = parseToks L V r.1 (.bin r.2 o :: st) .want (b ++ rest) := by
      simp only [parseToks, parseStep, haveStep]
      rw [reduce_under hst hn ⟨o, rfl⟩]
      rfl
    have hf : Follows (codePrec o + 1) rest := by
      rcases hr with h | h | ⟨o', h, hle⟩
      · exact .inl h
      · exact .inr (.inl h)
      · exact .inr (.inr ⟨o', h, by omega⟩)
    rw [h1, ihb r.1 (.bin r.2 o :: st) rest (by simp [Under]) hf]
    congr 1
    funext q
    rw [parseToks_have_bin hn hr]
    rfl

/-- On clear sets of operators the two orders agree. -/
theorem clear_order {U : BOp → Prop} (hU : Clear U) {o o' : BOp} (ho : U o) (ho' : U o') :
    (docPrec o ≤ docPrec o' → codePrec o ≤ codePrec o') ∧ (docPrec o + 1 ≤ docPrec o' → codePrec o + 1 ≤ codePrec o') := by
  obtain ⟨h1, h2, h3, h4, h5, h6⟩ := hU
  cases o <;> cases o' <;>
    first
    | decide
    | exact (h1 (And.intro ho ho')).elim
    | exact (h1 (And.intro ho' ho)).elim
    | exact (h2 (And.intro ho ho')).elim
    | exact (h2 (And.intro ho' ho)).elim
    | exact (h3 (And.intro ho ho')).elim
    | exact (h3 (And.intro ho' ho)).elim
    | exact (h4 (And.intro ho ho')).elim
    | exact (h4 (And.intro ho' ho)).elim
    | exact (h5 (And.intro ho ho')).elim
    | exact (h5 (And.intro ho' ho)).elim
    | exact (h6 (And.intro ho ho')).elim
    | exact (h6 (And.intro ho' ho)).elim

/-- A change of precedences that keeps their order on the operators used keeps the expressions. -/
theorem gram_clear {U : BOp → Prop} {n : Nat} {ts : List (Tok D)} {e : Ex D} (h : Gram Clear docPrec U n ts e) (hU : Clear U) (m : Nat)
    (hm : (∀ o, U o → n ≤ docPrec o → m ≤ codePrec o)) : Gram (fun _ => True) codePrec U m ts e := by
  induction h generalizing m with
  | num x => exact .num x
  | var v => exact .var v
  | par hU' _ ih => exact .par trivial (ih hU' 0 (by simp))
  | call f hU' _ ih => exact .call f trivial (ih hU' 0 (by simp))
  | @un U n m' t e u hlt _ ih =>
    refine .un (m := 5) u (by intro o; cases o <;> decide) (ih hU 5 ?_)
    intro o _ ho
    have := hlt o
    omega
  | @asg U n m' t e v hlt _ ih =>
    refine .asg (m := 5) v (by intro o; cases o <;> decide) (ih hU 5 ?_)
    intro o _ ho
    have := hlt o
    omega
  | @bin U n a b ea eb o hn ho _ _ iha ihb =>
    refine .bin o (hm o ho hn) ho (iha hU _ ?_) (ihb hU _ ?_)
    · exact fun o' ho' => (clear_order hU ho ho').1
    · exact fun o' ho' => (clear_order hU ho ho').2

/-! ### The scanner -/

theorem hex_char (c : Char) (h : c.toLower ∈ hexDigits) : c ∈ "0123456789abcdefABCDEF".toList := by
  have key : ∀ n : Fin 256, (Char.ofNat n).toLower ∈ hexDigits → Char.ofNat n ∈ "0123456789abcdefABCDEF".toList := by decide +kernel
  have hb : c.toNat < 256 := by
    by_cases hu : 'A' ≤ c ∧ c ≤ 'Z'
    · have : c.toNat ≤ 'Z'.toNat := hu.2
      have : 'Z'.toNat = 90 := rfl
      omega
    · have : c.toLower = c := by
        unfold Char.toLower
        split
        · next hh => exact absurd ⟨hh.1, hh.2⟩ hu
        · rfl
      rw [this] at h
      have : ∀ d ∈ hexDigits, d.toNat < 256 := by decide
      exact this c h
  have := key ⟨c.toNat, hb⟩
  simp only [Char.ofNat_toNat] at this
  exact this h

theorem nodelim_iff (c : Char) : isNodelim c = true ↔ c ∉ wordEnd ∧ c ≠ '\n' := by
  have h1 : ∀ d ∈ wordEnd, d ∈ "+-*%/&>~<|=()^\n\t ".toList := by decide
  have h2 : ∀ d ∈ "+-*%/&>~<|=()^\n\t ".toList, d ∈ wordEnd ∨ d = '\n' := by decide
  have h3 : '\n' ∈ "+-*%/&>~<|=()^\n\t ".toList := by decide
  unfold isNodelim
  rw [Bool.not_eq_true', ← Bool.not_eq_true, List.contains_iff_mem]
  constructor
  · intro h
    exact ⟨fun hw => h (h1 c hw), fun hc => h (hc ▸ h3)⟩
  · intro ⟨h, hn⟩ hm
    rcases h2 c hm with h' | h'
    · exact h h'
    · exact hn h'

theorem word_nodelim {L : FloatOps D} {w : List Char} {t : Tok D} (h : Word L w t) :
    w ≠ [] ∧ (∀ c ∈ w, isNodelim c = true ∧ c ≠ '.') ∧ wordTok L w = t := by
  cases h with
  | @int n hu hn hX =>
    have hd : ∀ c ∈ "0123456789".toList, isNodelim c = true ∧ c ≠ '.' ∧ isDigit c = true := by decide
    have ho : ∀ c ∈ "01234567".toList, c ∈ "0123456789".toList := by decide
    have hdec : ∀ c ∈ "123456789".toList, c ∈ "0123456789".toList := by decide
    have hh : ∀ c ∈ "0123456789abcdefABCDEF".toList, isNodelim c = true ∧ c ≠ '.' ∧ c ∈ "0123456789abcdefABCDEF".toList := by decide
    have hval : strtol0 w = ((n : Int), []) := by
      have := strtol0_number (.plain hu) [] (by intro c hc; simp at hc) (by omega) (by omega)
      simpa using this
    have hw : w ≠ [] ∧ (∀ c ∈ w, isNodelim c = true ∧ c ≠ '.') ∧ isInteger w = true := by
      clear hval hn
      cases hu with
      | @dec c ds hc hds =>
        have hall : ∀ x ∈ c :: ds, x ∈ "0123456789".toList := by
          intro x hx
          rcases List.mem_cons.1 hx with rfl | hx
          · exact hdec _ hc
          · exact hds _ hx
        refine ⟨by simp, fun x hx => ⟨(hd x (hall x hx)).1, (hd x (hall x hx)).2.1⟩, ?_⟩
        unfold isInteger
        rw [List.all_eq_true.2 (fun x hx => (hd x (hall x hx)).2.2)]
        simp
      | @oct ds hds =>
        have hall : ∀ x ∈ '0' :: ds, x ∈ "0123456789".toList := by
          intro x hx
          rcases List.mem_cons.1 hx with rfl | hx
          · decide
          · exact ho _ (hds _ hx)
        refine ⟨by simp, fun x hx => ⟨(hd x (hall x hx)).1, (hd x (hall x hx)).2.1⟩, ?_⟩
        unfold isInteger
        rw [List.all_eq_true.2 (fun x hx => (hd x (hall x hx)).2.2)]
        simp
      | @hex x c ds hx hds =>
        have hx' : x = 'x' := by
          rcases hx with rfl | rfl
          · rfl
          · simp at hX
        subst hx'
        have hall : ∀ y ∈ c :: ds, y ∈ "0123456789abcdefABCDEF".toList := fun y hy => hex_char y (hds y hy)
        refine ⟨by simp, ?_, ?_⟩
        · intro y hy
          rcases List.mem_cons.1 hy with rfl | hy
          · decide
          rcases List.mem_cons.1 hy with rfl | hy
          · decide
          exact ⟨(hh y (hall y hy)).1, (hh y (hall y hy)).2.1⟩
        · unfold isInteger
          simp only
          rw [show (c :: ds).all (fun c => "0123456789abcdefABCDEF".toList.contains c) = true from
            List.all_eq_true.2 (fun y hy => List.contains_iff_mem.2 (hall y hy))]
          simp
    refine ⟨hw.1, hw.2.1, ?_⟩
    unfold wordTok
    rw [if_pos hw.2.2, hval]
  | name hne hc hd hx hk hf =>
    refine ⟨hne, fun c h => ⟨(nodelim_iff c).2 ⟨(hc c h).1, (hc c h).2.1⟩, (hc c h).2.2⟩, ?_⟩
    have hi : isInteger w = false := by
      unfold isInteger
      have h1 : w.all isDigit = false := by
        obtain ⟨c, hcw, hcd⟩ := hd
        refine List.all_eq_false.2 ⟨c, hcw, ?_⟩
        intro h
        exact hcd (List.contains_iff_mem.1 h)
      rw [h1]
      split
      · exact absurd ⟨_, rfl⟩ hx
      · simp
    unfold wordTok
    rw [if_neg (by simp [hi]), if_neg hk, if_neg hf]
  | const hk =>
    have h1 : ∀ w ∈ evalConstants, w ≠ [] ∧ (∀ c ∈ w, isNodelim c = true ∧ c ≠ '.') ∧ isInteger w = false := by decide +kernel
    refine ⟨(h1 w hk).1, (h1 w hk).2.1, ?_⟩
    unfold wordTok
    rw [if_neg (by simp [(h1 w hk).2.2]), if_pos hk]
  | func hf =>
    have h1 : ∀ w ∈ evalFunctions, w ≠ [] ∧ (∀ c ∈ w, isNodelim c = true ∧ c ≠ '.') ∧ isInteger w = false ∧ w ∉ evalConstants := by decide +kernel
    refine ⟨(h1 w hf).1, (h1 w hf).2.1, ?_⟩
    unfold wordTok
    rw [if_neg (by simp [(h1 w hf).2.2.1]), if_neg (h1 w hf).2.2.2, if_pos hf]

theorem takeWhile_word {p : Char → Bool} {w s : List Char} (hw : ∀ c ∈ w, p c = true) (hs : ∀ c, s.head? = some c → p c = false) :
    (w ++ s).takeWhile p = w := by
  induction w with
  | nil =>
    cases s with
    | nil => rfl
    | cons c s => simp [List.takeWhile_cons, hs c rfl]
  | cons c w ih =>
    simp only [List.cons_append, List.takeWhile_cons, hw c (by simp), if_true]
    rw [ih (fun x hx => hw x (by simp [hx]))]

theorem floatLen_word {w s : List Char} (hw : ∀ c ∈ w, c ≠ '.') (hs : ∀ c, s.head? = some c → isDigit c = false ∧ c ≠ '.') :
    floatLen (w ++ s) = 0 := by
  unfold floatLen
  have key : ∀ r, (w ++ s).dropWhile isDigit ≠ '.' :: r := by
    induction w with
    | nil =>
      intro r h
      cases s with
      | nil => simp at h
      | cons c s =>
        simp only [List.nil_append, List.dropWhile_cons, (hs c rfl).1] at h
        simp at h
        exact (hs c rfl).2 h.1
    | cons c w ih =>
      intro r h
      simp only [List.cons_append, List.dropWhile_cons] at h
      split at h
      · exact ih (fun x hx => hw x (by simp [hx])) r h
      · simp at h
        exact hw c (by simp) h.1
  split
  · next r h => exact absurd h (key r)
  · rfl

theorem dropWhile_word {p : Char → Bool} {w s : List Char} (hw : ∀ c ∈ w, p c = true) (hs : ∀ c, s.head? = some c → p c = false) :
    (w ++ s).dropWhile p = s := by
  induction w with
  | nil =>
    cases s with
    | nil => rfl
    | cons c s => simp [List.dropWhile_cons, hs c rfl]
  | cons c w ih =>
    simp only [List.cons_append, List.dropWhile_cons, hw c (by simp), if_true]
    exact ih (fun x hx => hw x (by simp [hx]))

theorem floatLen_split {a b r : List Char} (hab : ∀ c ∈ a ++ b, isDigit c = true) (hne : a ++ b ≠ []) (hr : ∀ c, r.head? = some c → isDigit c = false) :
    floatLen (a ++ '.' :: (b ++ r)) = a.length + 1 + b.length + exponentLen r := by
  unfold floatLen
  have ha : ∀ c ∈ a, isDigit c = true := fun c hc => hab c (by simp [hc])
  have hb : ∀ c ∈ b, isDigit c = true := fun c hc => hab c (by simp [hc])
  have hd : ∀ c, ('.' :: (b ++ r)).head? = some c → isDigit c = false := by
    intro c hc
    simp only [List.head?_cons, Option.some.injEq] at hc
    subst hc
    decide
  rw [takeWhile_word ha hd, dropWhile_word ha hd]
  simp only
  rw [takeWhile_word hb hr, dropWhile_word hb hr, if_neg]
  rintro ⟨rfl, rfl⟩
  exact hne rfl

/-- The scanner finds the whole of a decimal number. -/
theorem floatLen_dec {w s : List Char} (hw : DecText w) (hs : ∀ c, s.head? = some c → c ∈ wordEnd) :
    floatLen (w ++ s) = w.length ∧ ((w ++ s).takeWhile isNodelim).length ≤ w.length ∧ ∃ c r, w = c :: r ∧ isNodelim c = true := by
  have hdig : ∀ c ∈ "0123456789".toList, isDigit c = true ∧ isNodelim c = true := by decide
  have hend : ∀ c ∈ wordEnd, isNodelim c = false ∧ isDigit c = false ∧ c ≠ 'e' ∧ c ≠ 'E' := by decide
  have hfirst : ∀ a b r : List Char, (∀ c ∈ a ++ b, c ∈ "0123456789".toList) → ∃ c r', a ++ '.' :: r = c :: r' ∧ isNodelim c = true := by
    intro a b r h
    cases a with
    | nil => exact ⟨'.', r, rfl, by decide⟩
    | cons c a => exact ⟨c, _, rfl, (hdig c (h c (by simp))).2⟩
  have hlen : ∀ u v : List Char, (∀ c, v.head? = some c → isNodelim c = false) → ((u ++ v).takeWhile isNodelim).length ≤ u.length := by
    intro u v hv
    induction u with
    | nil =>
      cases v with
      | nil => simp
      | cons c v => simp [List.takeWhile_cons, hv c rfl]
    | cons c u ih =>
      simp only [List.cons_append, List.takeWhile_cons]
      split
      · simpa using ih
      · simp
  cases hw with
  | @plain a b hab hne =>
    refine ⟨?_, hlen _ _ (fun c hc => (hend c (hs c hc)).1), hfirst a b b hab⟩
    rw [show a ++ '.' :: b ++ s = a ++ '.' :: (b ++ s) by simp,
      floatLen_split (fun c hc => (hdig c (hab c hc)).1) hne (fun c hc => (hend c (hs c hc)).2.1)]
    have : exponentLen s = 0 := by
      cases s with
      | nil => rfl
      | cons c s =>
        have := hend c (hs c rfl)
        simp [exponentLen, this.2.2.1, this.2.2.2]
    rw [this]
    simp
    omega
  | @exp a b e ds hab hne he hds hdn =>
    refine ⟨?_, hlen _ _ (fun c hc => (hend c (hs c hc)).1), hfirst a b _ hab⟩
    rw [show a ++ '.' :: (b ++ e :: ds) ++ s = a ++ '.' :: (b ++ (e :: (ds ++ s))) by simp,
      floatLen_split (fun c hc => (hdig c (hab c hc)).1) hne (by
        intro c hc
        simp only [List.head?_cons, Option.some.injEq] at hc
        subst hc
        rcases he with rfl | rfl <;> decide)]
    have hdd : (ds ++ s).takeWhile isDigit = ds := takeWhile_word (fun c hc => (hdig c (hds c hc)).1) (fun c hc => (hend c (hs c hc)).2.1)
    have : exponentLen (e :: (ds ++ s)) = ds.length + 1 := by
      cases ds with
      | nil => exact absurd rfl hdn
      | cons c ds =>
        have hcs : ∀ c ∈ "0123456789".toList, ¬ (c = '+' ∨ c = '-') := by decide
        simp only [List.cons_append] at hdd ⊢
        unfold exponentLen
        simp only
        rw [if_pos he, if_neg (hcs c (hds c (by simp))), hdd]
        simp
    rw [this]
    simp
    omega
  | @sexp a b e g ds hab hne he hg hds hdn =>
    refine ⟨?_, ?_, hfirst a b _ hab⟩
    · rw [show a ++ '.' :: (b ++ e :: g :: ds) ++ s = a ++ '.' :: (b ++ (e :: g :: (ds ++ s))) by simp,
        floatLen_split (fun c hc => (hdig c (hab c hc)).1) hne (by
          intro c hc
          simp only [List.head?_cons, Option.some.injEq] at hc
          subst hc
          rcases he with rfl | rfl <;> decide)]
      have hdd : (ds ++ s).takeWhile isDigit = ds := takeWhile_word (fun c hc => (hdig c (hds c hc)).1) (fun c hc => (hend c (hs c hc)).2.1)
      have : exponentLen (e :: g :: (ds ++ s)) = ds.length + 2 := by
        unfold exponentLen
        simp only
        rw [if_pos he, if_pos hg, hdd, if_neg (by cases ds <;> simp_all)]
      rw [this]
      simp
      omega
    · have := hlen (a ++ '.' :: (b ++ [e])) (g :: (ds ++ s)) (by
        intro c hc
        simp only [List.head?_cons, Option.some.injEq] at hc
        subst hc
        rcases hg with rfl | rfl <;> decide)
      rw [show a ++ '.' :: (b ++ [e]) ++ g :: (ds ++ s) = a ++ '.' :: (b ++ e :: g :: ds) ++ s by simp] at this
      simp only [List.length_append, List.length_cons, List.length_nil] at this ⊢
      omega

theorem lex_sym (L : FloatOps D) {c : Char} {r : List Char} (hc : isNodelim c = false) :
    lex L (c :: r) = (symTok c r.head?).1.toList ++ lex L (if (symTok (D := D) c r.head?).2 then r.drop 1 else r) := by
  rw [lex.eq_2, if_neg (by simp [hc])]

/-- The scanner finds the tokens of a text. -/
theorem lex_spelt {L : FloatOps D} {s : List Char} {ts : List (Tok D)} (h : Spelt L s ts) : lex L s = ts := by
  induction h with
  | nil => exact lex.eq_1 L
  | @blank c s ts hc _ ih =>
    have h1 : ∀ c, c = ' ' ∨ c = '\t' → isNodelim c = false ∧ ∀ o, symTok (D := D) c o = (none, false) := by
      rintro c (rfl | rfl) <;> exact ⟨by decide, fun _ => rfl⟩
    rw [lex_sym L (h1 c hc).1, (h1 c hc).2]
    simpa using ih
  | @word w t s ts hw hs _ ih =>
    obtain ⟨hne, hall, htok⟩ := word_nodelim hw
    have hsep : ∀ c ∈ wordEnd, isNodelim c = false ∧ isDigit c = false ∧ c ≠ '.' := by decide
    have htw := takeWhile_word (p := isNodelim) (w := w) (s := s) (fun c hc => (hall c hc).1) (fun c hc => (hsep c (hs c hc)).1)
    have hfl := floatLen_word (w := w) (s := s) (fun c hc => (hall c hc).2) (fun c hc => (hsep c (hs c hc)).2)
    cases w with
    | nil => exact absurd rfl hne
    | cons c w =>
      simp only [List.cons_append] at htw hfl ⊢
      rw [lex.eq_2, if_pos (hall c (by simp)).1, htw, hfl]
      simp only [ne_eq, not_true_eq_false, false_and, if_false, List.length_cons, Nat.add_sub_cancel, List.drop_left, htok, ih]
  | @dec w s ts hw hs _ ih =>
    obtain ⟨h1, h2, c, r, rfl, hc⟩ := floatLen_dec hw hs
    simp only [List.cons_append] at h1 h2 ⊢
    rw [lex.eq_2, if_pos hc, h1]
    simp only
    rw [if_pos ⟨by simp, h2⟩]
    congr 1
    · rw [← List.cons_append, List.take_left]
    · rw [List.length_cons, Nat.add_sub_cancel, List.drop_left, ih]
  | @op o s ts h1 h2 _ ih =>
    cases o <;> simp only [opText]
    case bor =>
      have : s.head? ≠ some '|' := h2 rfl
      show lex L ('|' :: s) = _
      rw [lex_sym L (by decide)]
      simp [symTok, this, ih]
    case band =>
      have : s.head? ≠ some '&' := h1 rfl
      show lex L ('&' :: s) = _
      rw [lex_sym L (by decide)]
      simp [symTok, this, ih]
    case lor => show lex L ('|' :: '|' :: s) = _; rw [lex_sym L (by decide)]; simp [symTok, ih]
    case land => show lex L ('&' :: '&' :: s) = _; rw [lex_sym L (by decide)]; simp [symTok, ih]
    case shr => show lex L ('>' :: '>' :: s) = _; rw [lex_sym L (by decide)]; simp [symTok, ih]
    case shl => show lex L ('<' :: '<' :: s) = _; rw [lex_sym L (by decide)]; simp [symTok, ih]
    case xor => show lex L ('^' :: s) = _; rw [lex_sym L (by decide)]; simp [symTok, ih]
    case sub => show lex L ('-' :: s) = _; rw [lex_sym L (by decide)]; simp [symTok, ih]
    case add => show lex L ('+' :: s) = _; rw [lex_sym L (by decide)]; simp [symTok, ih]
    case mul => show lex L ('*' :: s) = _; rw [lex_sym L (by decide)]; simp [symTok, ih]
    case div => show lex L ('/' :: s) = _; rw [lex_sym L (by decide)]; simp [symTok, ih]
    case mod => show lex L ('%' :: s) = _; rw [lex_sym L (by decide)]; simp [symTok, ih]
  | tilde _ ih => rw [lex_sym L (by decide)]; simp [symTok, ih]
  | asg _ ih => rw [lex_sym L (by decide)]; simp [symTok, ih]
  | lpar _ ih => rw [lex_sym L (by decide)]; simp [symTok, ih]
  | rpar _ ih => rw [lex_sym L (by decide)]; simp [symTok, ih]

/-! ### Values -/

/-- The integers written in an expression have their values as decimal numbers, too. -/
def ExLits (L : FloatOps D) : Ex D → Prop
  | .num x => x.isD = false → x.d = L.ofInt x.i
  | .var _ => True
  | .un _ e => ExLits L e
  | .bin _ a b => ExLits L a ∧ ExLits L b
  | .asg _ e => ExLits L e
  | .call _ e => ExLits L e

theorem gram_lits {L : FloatOps D} {ok : (BOp → Prop) → Prop} {P : BOp → Nat} {U : BOp → Prop} {n : Nat} {ts : List (Tok D)} {e : Ex D}
    (h : Gram ok P U n ts e) (ht : ∀ x, Tok.num x ∈ ts → x.isD = false → x.d = L.ofInt x.i) : ExLits L e := by
  induction h with
  | num x => exact ht x (by simp)
  | var v => trivial
  | par _ _ ih => exact ih (fun x hx => ht x (by simp [hx]))
  | call f _ _ ih => exact ih (fun x hx => ht x (by simp [hx]))
  | un u _ _ ih => exact ih (fun x hx => ht x (by simp [hx]))
  | asg v _ _ ih => exact ih (fun x hx => ht x (by simp [hx]))
  | bin o _ _ _ _ iha ihb => exact ⟨iha (fun x hx => ht x (by simp [hx])), ihb (fun x hx => ht x (by simp [hx]))⟩

theorem spelt_lits {L : FloatOps D} {s : List Char} {ts : List (Tok D)} (h : Spelt L s ts) :
    ∀ x, Tok.num x ∈ ts → x.isD = false → x.d = L.ofInt x.i := by
  induction h with
  | nil => simp
  | blank _ _ ih => exact ih
  | word hw _ _ ih =>
    intro x hx
    rcases List.mem_cons.1 hx with hx | hx
    · cases hw with
      | int => cases hx; exact fun _ => rfl
      | name => cases hx
      | const => cases hx; exact fun h => nomatch h
      | func => cases hx
    · exact ih x hx
  | dec _ _ _ ih =>
    intro x hx
    rcases List.mem_cons.1 hx with hx | hx
    · cases hx; exact fun h => nomatch h
    · exact ih x hx
  | op _ _ _ ih => intro x hx; exact ih x (by simpa using hx)
  | tilde _ ih => intro x hx; exact ih x (by simpa using hx)
  | asg _ ih => intro x hx; exact ih x (by simpa using hx)
  | lpar _ ih => intro x hx; exact ih x (by simpa using hx)
  | rpar _ ih => intro x hx; exact ih x (by simpa using hx)

theorem toInt32_ofInt {x : Int} (h : InInt x) : (BitVec.ofInt 32 x).toInt = x := by
  obtain ⟨h1, h2⟩ := h
  rw [BitVec.toInt_ofInt, Int.bmod_eq_of_le (by omega) (by omega)]

theorem ofInt_64 {x : Int} (h : InInt x) : BitVec.ofInt 64 x = (BitVec.ofInt 32 x).signExtend 64 := by
  unfold BitVec.signExtend
  rw [toInt32_ofInt h]

theorem and_64 {x y : Int} (hx : InInt x) (hy : InInt y) :
    (BitVec.ofInt 64 x &&& BitVec.ofInt 64 y).toInt = (BitVec.ofInt 32 x &&& BitVec.ofInt 32 y).toInt := by
  rw [ofInt_64 hx, ofInt_64 hy, ← BitVec.signExtend_and, BitVec.toInt_signExtend_of_le (by omega)]

theorem or_64 {x y : Int} (hx : InInt x) (hy : InInt y) :
    (BitVec.ofInt 64 x ||| BitVec.ofInt 64 y).toInt = (BitVec.ofInt 32 x ||| BitVec.ofInt 32 y).toInt := by
  rw [ofInt_64 hx, ofInt_64 hy, ← BitVec.signExtend_or, BitVec.toInt_signExtend_of_le (by omega)]

theorem xor_64 {x y : Int} (hx : InInt x) (hy : InInt y) :
    (BitVec.ofInt 64 x ^^^ BitVec.ofInt 64 y).toInt = (BitVec.ofInt 32 x ^^^ BitVec.ofInt 32 y).toInt := by
  rw [ofInt_64 hx, ofInt_64 hy, ← BitVec.signExtend_xor, BitVec.toInt_signExtend_of_le (by omega)]

theorem fitIn_int {w : Nat} {v : Int} (hw : w = 32 ∨ w = 64) (h : InInt v) : fitIn w v = some v := by
  unfold fitIn
  obtain ⟨h1, h2⟩ := h
  rcases hw with rfl | rfl
  · exact if_pos ⟨by omega, by omega⟩
  · exact if_pos ⟨by omega, by omega⟩

theorem tdiv_bound (x y : Int) : (x.tdiv y).natAbs ≤ x.natAbs := by
  rw [Int.natAbs_tdiv]; exact Nat.div_le_self _ _

theorem intOp_meaning {w : Nat} (hw : w = 32 ∨ w = 64) {o : BOp} {x y v : Int} (hx : InInt x) (hy : InInt y) (h : opMeaning o x y = some v)
    (hv : InInt v) (hm : o = .mod → w = 64) : intOp w o x y = some v := by
  unfold opMeaning at h
  cases o <;> simp only [intOp] at h ⊢
  case add => cases h; exact fitIn_int hw hv
  case sub => cases h; exact fitIn_int hw hv
  case mul => cases h; exact fitIn_int hw hv
  case div =>
    split at h
    · cases h
    · rename_i h0
      cases h; rw [if_neg h0]; exact fitIn_int hw hv
  case mod =>
    split at h
    · cases h
    · rename_i h0
      cases h
      rw [if_neg h0, hm rfl]
      have := tdiv_bound x y
      obtain ⟨h1, h2⟩ := hx
      unfold fitIn
      rw [if_pos ⟨by omega, by omega⟩]
      rfl
  case band =>
    cases h
    rcases hw with rfl | rfl
    · rw [and_64 hx hy]
    · rfl
  case bor =>
    cases h
    rcases hw with rfl | rfl
    · rw [or_64 hx hy]
    · rfl
  case xor =>
    cases h
    rcases hw with rfl | rfl
    · rw [xor_64 hx hy]
    · rfl
  case shl =>
    split at h
    · rename_i h0
      cases h
      rw [if_pos ⟨h0.1, by rcases hw with rfl | rfl <;> omega, h0.2.2⟩]
      exact fitIn_int hw hv
    · cases h
  case shr =>
    split at h
    · rename_i h0
      cases h
      rw [if_pos ⟨h0.1, by rcases hw with rfl | rfl <;> omega⟩]
    · cases h
  case lor =>
    cases h
    congr 1
    by_cases h1 : x = 0 <;> by_cases h2 : y = 0 <;> simp [h1, h2]
  case land =>
    cases h
    congr 1
    by_cases h1 : x = 0 <;> by_cases h2 : y = 0 <;> simp [h1, h2]

theorem intOfFloat_meaning {L : FloatOps D} {Rep : D → Int → Prop} (FL : FloatLaws L Rep) {o : BOp} (ho : o ≠ .mod) {a b : D} {x y v : Int}
    (ha : Rep a x) (hb : Rep b y) (hx : InInt x) (hy : InInt y) (h : opMeaning o x y = some v) (hv : InInt v) :
    intOfFloat L o a b = some (L.ofInt v) := by
  unfold intOfFloat
  rw [FL.toInt a x ha hx]
  simp only
  by_cases h1 : o = .lor ∧ x ≠ 0
  · rw [if_pos h1]
    obtain ⟨rfl, hx0⟩ := h1
    simp [opMeaning, hx0] at h
    rw [h]
  · rw [if_neg h1]
    by_cases h2 : o = .land ∧ x = 0
    · rw [if_pos h2]
      obtain ⟨rfl, hx0⟩ := h2
      simp [opMeaning, hx0] at h
      rw [h]
    · rw [if_neg h2, FL.toInt b y hb hy]
      simp only
      rw [intOp_meaning (.inl rfl) hx hy h hv (fun h => absurd h ho)]
      rfl

/-- Evaluation by the actions of the parser gives the value. -/
theorem tree_value {L : FloatOps D} {V : VarOps σ D} {Rep : D → Int → Prop} (FL : FloatLaws L Rep) (VL : VarLaws L V) {e : Ex D}
    (hl : ExLits L e) {s : σ} {st st' : List Char → Int} {v : Int} {ex : Bool} (h : intValue st e = some (v, ex, st'))
    (hs : HoldsInts V Rep s st) :
    ∃ (s' : σ) (x : Num D), treeVal L V s e = .ok (s', x) ∧ x.isD = false ∧ x.i = v ∧ (ex = true → Rep x.d v) ∧ HoldsInts V Rep s' st' ∧ InInt v := by
  induction e generalizing s st st' v ex with
  | num x =>
    simp only [intValue] at h
    split at h
    · rename_i hx
      cases h
      exact ⟨s, x, rfl, hx.1, rfl, fun _ => by rw [hl hx.1]; exact FL.ofInt _ hx.2, hs, hx.2⟩
    · cases h
  | var n =>
    simp only [intValue] at h
    split at h
    · rename_i hx
      cases h
      refine ⟨s, { isD := false, i := st n, d := V.get s n }, ?_, rfl, rfl, fun _ => hs n, hs, hx⟩
      simp only [treeVal, varAct, FL.toInt _ _ (hs n) hx, Res.ofOption]
      rfl
    · cases h
  | un u e ih =>
    simp only [intValue, Option.bind_eq_bind, Option.bind_eq_some_iff] at h
    obtain ⟨⟨x, ex1, st1⟩, h1, h⟩ := h
    obtain ⟨s', r, hr, hd, hi, hrep, hh, hin⟩ := ih hl h1 hs
    cases u with
    | neg =>
      simp only at h
      split at h
      · rename_i hv
        cases h
        refine ⟨s', { isD := false, i := -x, d := L.neg r.d }, ?_, rfl, rfl, fun he => FL.neg _ _ (hrep he) hin, hh, hv⟩
        simp only [treeVal, hr, Res.ok_bind, unAct, hd, hi, fitIn_int (.inr rfl) hv, Res.ofOption]
        rfl
      · cases h
    | not => cases h
    | compl =>
      simp only at h
      split at h
      · rename_i he
        cases h
        have hv : InInt (-x - 1) := by obtain ⟨h1, h2⟩ := hin; exact ⟨by omega, by omega⟩
        refine ⟨s', { isD := false, i := -x - 1, d := L.ofInt (-x - 1) }, ?_, rfl, rfl, fun _ => FL.ofInt _ hv, hh, hv⟩
        simp only [treeVal, hr, Res.ok_bind, unAct, hd, hi, FL.toInt _ _ (hrep he) hin, Res.ofOption]
        rfl
      · cases h
  | bin o a b iha ihb =>
    simp only [intValue, Option.bind_eq_bind, Option.bind_eq_some_iff] at h
    obtain ⟨⟨x, ex1, st1⟩, h1, ⟨y, ey1, st2⟩, h2, w, hw, h⟩ := h
    obtain ⟨s1, r1, hr1, hd1, hi1, hrep1, hh1, hin1⟩ := iha hl.1 h1 hs
    obtain ⟨s2, r2, hr2, hd2, hi2, hrep2, hh2, hin2⟩ := ihb hl.2 h2 hh1
    split at h
    · rename_i hv
      have h64 := intOp_meaning (.inr rfl) hin1 hin2 hw hv (fun _ => rfl)
      split at h
      · rename_i hb
        split at h
        · rename_i he
          cases h
          have hd := intOfFloat_meaning FL (by intro ho; subst ho; cases hb) (hrep1 he.1) (hrep2 he.2) hin1 hin2 hw hv
          refine ⟨s2, { isD := false, i := v, d := L.ofInt v }, ?_, rfl, rfl, fun _ => FL.ofInt _ hv, hh2, hv⟩
          simp only [treeVal, hr1, hr2, Res.ok_bind, binAct, hd1, hd2, hi1, hi2, h64, hd, Res.ofOption, hb, if_true]
          rfl
        · cases h
      · rename_i hb
        cases h
        refine ⟨s2, { isD := false, i := v, d := floatOp L o r1.d r2.d }, ?_, rfl, rfl, ?_, hh2, hv⟩
        · simp only [treeVal, hr1, hr2, Res.ok_bind, binAct, hd1, hd2, hi1, hi2, h64, Res.ofOption, hb, if_false]
          rfl
        · intro he
          simp only [Bool.and_eq_true] at he
          obtain ⟨⟨he1, he2⟩, hdv⟩ := he
          have ha := hrep1 he1
          have hb' := hrep2 he2
          cases o <;> simp [BOp.bitwise] at hb <;> simp only [opMeaning] at hw <;> simp only [floatOp]
          · cases hw; exact FL.sub _ _ _ _ ha hb' hin1 hin2 hv
          · cases hw; exact FL.add _ _ _ _ ha hb' hin1 hin2 hv
          · cases hw; exact FL.mul _ _ _ _ ha hb' hin1 hin2 hv
          · split at hw
            · cases hw
            · rename_i h0
              cases hw
              exact FL.div _ _ _ _ ha hb' hin1 hin2 h0 (by simpa using hdv)
          · split at hw
            · cases hw
            · rename_i h0
              cases hw
              exact FL.fmod _ _ _ _ ha hb' hin1 hin2 h0
    · cases h
  | asg n e ih =>
    simp only [intValue, Option.bind_eq_bind, Option.bind_eq_some_iff] at h
    obtain ⟨⟨x, ex1, st1⟩, h1, h⟩ := h
    obtain ⟨s', r, hr, hd, hi, hrep, hh, hin⟩ := ih hl h1 hs
    cases h
    refine ⟨V.set s' n (L.ofInt x), r, ?_, hd, hi, hrep, ?_, hin⟩
    · simp only [treeVal, hr, Res.ok_bind, asDouble, hd, hi]
      rfl
    · intro m
      rw [VL.set _ _ _ _ hin]
      unfold assignInt
      split
      · exact FL.ofInt _ hin
      · exact hh m
  | call f e _ => cases h

/-! ### SET /A -/

theorem trim_trim (n : List Char) : trim (trim n) = trim n := by
  have hdw : ∀ l : List Char, (l.dropWhile blank).dropWhile blank = l.dropWhile blank := by
    intro l
    induction l with
    | nil => rfl
    | cons c l ih =>
      simp only [List.dropWhile_cons]
      split
      · exact ih
      · simp only [List.dropWhile_cons]; rw [if_neg (by assumption)]
  unfold trim
  simp only
  split
  · rfl
  · rename_i h; rw [List.reverse_reverse, hdw, if_neg h]

/-- Integers on 64 bits. -/
theorem fits64_eq (v : Int) : fits64 v = fitIn 64 v := rfl

/-- Evaluation by the actions of the parser, with decimal numbers. -/
theorem tree_float {L : FloatOps D} {V : VarOps σ D} {e : Ex D} (hl : ExLits L e) (s : σ) {d : D} (h : floatOf L (V.get s) e = some d)
    (hf : PartsFit L (V.get s) e) :
    ∃ x : Num D, treeVal L V s e = .ok (s, x) ∧ x.isD = usesFloat e ∧ x.d = d ∧ (usesFloat e = false → int64 L (V.get s) e = some x.i) := by
  induction e generalizing d with
  | num x =>
    cases h
    exact ⟨x, rfl, rfl, rfl, fun h => by simp only [usesFloat] at h; simp [int64, h]⟩
  | var n =>
    cases h
    obtain ⟨i, hi⟩ := Option.ne_none_iff_exists'.1 hf
    refine ⟨{ isD := false, i := i, d := V.get s n }, ?_, rfl, rfl, fun _ => hi⟩
    simp only [treeVal, varAct, hi, Res.ofOption]
    rfl
  | un u e ih =>
    cases u with
    | neg =>
      simp only [floatOf, Option.map_eq_some_iff] at h
      obtain ⟨d', h1, rfl⟩ := h
      obtain ⟨x, h2, h3, h4, h5⟩ := ih hl h1 hf.1
      cases hu : usesFloat e with
      | true =>
        refine ⟨{ isD := true, i := 0, d := L.neg x.d }, ?_, by simp [usesFloat, hu], by rw [h4], fun h => by simp [usesFloat, hu] at h⟩
        simp only [treeVal, h2, Res.ok_bind, unAct, h3, hu, if_true]
        rfl
      | false =>
        have h6 := hf.2.resolve_left (by simp [hu])
        simp only [int64, h5 hu, Option.bind_some, ne_eq] at h6
        obtain ⟨i, hi⟩ := Option.ne_none_iff_exists'.1 h6
        refine ⟨{ isD := false, i := i, d := L.neg x.d }, ?_, by simp [usesFloat, hu], by rw [h4], fun _ => by simp [int64, h5 hu, hi]⟩
        rw [fits64_eq] at hi
        simp only [treeVal, h2, Res.ok_bind, unAct, h3, hu, hi]
        rfl
    | not => cases h
    | compl => cases h
  | bin o a b iha ihb =>
    obtain ⟨x, y, hx, hy⟩ : ∃ x y, floatOf L (V.get s) a = some x ∧ floatOf L (V.get s) b = some y := by
      unfold floatOf at h
      split at h <;> first | exact ⟨_, _, by assumption, by assumption⟩ | cases h
    obtain ⟨x', a2, a3, a4, a5⟩ := iha hl.1 hx hf.1
    obtain ⟨y', b2, b3, b4, b5⟩ := ihb hl.2 hy hf.2.1
    have ho : o.bitwise = false ∧ floatOp L o x y = d := by
      unfold floatOf at h
      rw [hx, hy] at h
      cases o <;> simp only [Option.some.injEq, reduceCtorEq] at h <;> exact ⟨rfl, h⟩
    cases hu : usesFloat a || usesFloat b with
    | true =>
      refine ⟨{ isD := true, i := 0, d := d }, ?_, by simp only [usesFloat, hu], rfl, fun h => by simp only [usesFloat, hu] at h; cases h⟩
      simp only [treeVal, a2, b2, Res.ok_bind, binAct, a3, b3, hu, if_true, ho.1, a4, b4, ho.2]
      rfl
    | false =>
      obtain ⟨ha, hb⟩ := Bool.or_eq_false_iff.1 hu
      have h6 := (hf.2.2.resolve_left (by simp [ha])).resolve_left (by simp [hb])
      obtain ⟨i, hi⟩ := Option.ne_none_iff_exists'.1 h6
      refine ⟨{ isD := false, i := i, d := d }, ?_, by simp only [usesFloat, hu], rfl, fun _ => hi⟩
      have hop : intOp 64 o x'.i y'.i = some i := by
        unfold int64 at hi
        rw [a5 ha, b5 hb] at hi
        cases o <;> simp only [fits64_eq, reduceCtorEq] at hi <;> exact hi
      simp only [treeVal, a2, b2, Res.ok_bind, binAct, a3, b3, hu, ho.1, a4, b4, ho.2, hop]
      rfl
  | asg n e => cases h
  | call f e ih =>
    simp only [floatOf, Option.map_eq_some_iff] at h
    obtain ⟨d', h1, rfl⟩ := h
    obtain ⟨x, h2, h3, h4, -⟩ := ih hl h1 hf.1
    refine ⟨callAct L f x, ?_, rfl, ?_, fun h => nomatch h⟩
    · simp only [treeVal, h2, Res.ok_bind]
      rfl
    · show L.func f (asDouble L x) = _
      congr 1
      unfold asDouble
      rcases hf.2 with hu | ⟨z, rfl⟩
      · rw [h3, hu, if_pos rfl, h4]
      · cases h2
        cases h1
        cases hz : x.isD with
        | true => rfl
        | false => exact (hl hz).symm

/-- Integers on 64 bits as decimal numbers. -/
theorem int64_float {L : FloatOps D} {get : List Char → D} {e : Ex D} {v : Int} (h : int64 L get e = some v) :
    usesFloat e = false ∧ (∃ d, floatOf L get e = some d) ∧ PartsFit L get e := by
  induction e generalizing v with
  | num x =>
    simp only [int64] at h
    split at h
    · cases h
    · rename_i hx
      exact ⟨by simpa [usesFloat] using hx, ⟨_, rfl⟩, trivial⟩
  | var n => exact ⟨rfl, ⟨_, rfl⟩, by simp only [PartsFit]; simp only [int64] at h; simp [h]⟩
  | un u e ih =>
    have h0 := h
    cases u with
    | neg =>
      simp only [int64, Option.bind_eq_some_iff] at h
      obtain ⟨x, h1, h2⟩ := h
      obtain ⟨i1, ⟨d, i2⟩, i3⟩ := ih h1
      exact ⟨i1, ⟨L.neg d, by simp [floatOf, i2]⟩, i3, .inr (by rw [h0]; simp)⟩
    | not => cases h
    | compl => cases h
  | bin o a b iha ihb =>
    have h0 := h
    obtain ⟨x, y, hx, hy⟩ : ∃ x y, int64 L get a = some x ∧ int64 L get b = some y := by
      unfold int64 at h
      split at h <;> first | exact ⟨_, _, by assumption, by assumption⟩ | cases h
    obtain ⟨a1, ⟨da, a2⟩, a3⟩ := iha hx
    obtain ⟨b1, ⟨db, b2⟩, b3⟩ := ihb hy
    refine ⟨by simp [usesFloat, a1, b1], ?_, a3, b3, .inr (.inr (by rw [h0]; simp))⟩
    unfold int64 at h
    unfold floatOf
    rw [hx, hy] at h
    rw [a2, b2]
    cases o <;> first | exact ⟨_, rfl⟩ | (simp at h)
  | asg n e => cases h
  | call f e => cases h

/-- The parser on the text of an expression. -/
theorem parse_text {L : FloatOps D} {V : VarOps σ D} {t : List Char} {e : Ex D} (ht : ExText L t e) :
    ∃ ts : List (Tok D), Spelt L t ts ∧ ExLits L e ∧ ∀ (s : σ) (st : List (Frame D)) (rest : List (Tok D)), Under 0 st → Follows 0 rest →
      parseToks L V s st .want (ts ++ rest) = treeVal L V s e >>= fun r => parseToks L V r.1 st (.have r.2) rest := by
  obtain ⟨U, ts, hU, hsp, hg⟩ := ht
  exact ⟨ts, hsp, gram_lits hg (spelt_lits hsp), fun s st rest h1 h2 => parse_gram (gram_clear hg hU 0 (by simp)) s st rest h1 h2⟩

/-- Texts one after the other, the second beginning with a symbol. -/
theorem spelt_append {L : FloatOps D} {t u : List Char} {ts us : List (Tok D)} (ht : Spelt L t ts) (hu : Spelt L u us) {c : Char}
    (hc : u.head? = some c) (hw : c ∈ wordEnd) (h1 : c ≠ '&') (h2 : c ≠ '|') : Spelt L (t ++ u) (ts ++ us) := by
  have hh : ∀ (s : List Char), (∀ x, s.head? = some x → x ∈ wordEnd) → ∀ x, (s ++ u).head? = some x → x ∈ wordEnd := by
    intro s hs x hx
    cases s with
    | nil => rw [List.nil_append, hc] at hx; cases hx; exact hw
    | cons a s => exact hs x hx
  have hn : ∀ (s : List Char) (y : Char), c ≠ y → s.head? ≠ some y → (s ++ u).head? ≠ some y := by
    intro s y hy hs
    cases s with
    | nil => rw [List.nil_append, hc]; simpa using hy
    | cons a s => exact hs
  induction ht with
  | nil => exact hu
  | blank hb _ ih => exact .blank hb ih
  | word hw' hs _ ih => rw [List.append_assoc]; exact .word hw' (hh _ hs) ih
  | dec hw' hs _ ih => rw [List.append_assoc]; exact .dec hw' (hh _ hs) ih
  | op ha hb _ ih => rw [List.append_assoc]; exact .op (fun h => hn _ _ h1 (ha h)) (fun h => hn _ _ h2 (hb h)) ih
  | tilde _ ih => exact .tilde ih
  | asg _ ih => exact .asg ih
  | lpar _ ih => exact .lpar ih
  | rpar _ ih => exact .rpar ih

/-- Evaluating the text of an expression. -/
theorem evaluate_text {L : FloatOps D} {V : VarOps σ D} {Rep : D → Int → Prop} (FL : FloatLaws L Rep) (VL : VarLaws L V) {t : List Char}
    {e : Ex D} (ht : ExText L t e) {s : σ} {st st' : List Char → Int} {v : Int} {ex : Bool} (h : intValue st e = some (v, ex, st'))
    (hs : HoldsInts V Rep s st) (old : Bool) :
    ∃ s', evaluate L V old s t = .ok (s', L.ofInt v, false) ∧ HoldsInts V Rep s' st' ∧ InInt v := by
  obtain ⟨U, ts, hU, hsp, hg⟩ := ht
  obtain ⟨s', x, htv, hd, hi, -, hh, hin⟩ := tree_value FL VL (gram_lits hg (spelt_lits hsp)) h hs
  refine ⟨s', ?_, hh, hin⟩
  have hp := parse_gram (L := L) (V := V) (gram_clear hg hU 0 (by simp)) s [] [] trivial (.inl rfl)
  rw [List.append_nil, htv] at hp
  unfold evaluate
  rw [lex_spelt hsp, hp]
  simp only [Res.ok_bind, parseToks, parseStep, haveStep, reduce, Res.pure_eq, asDouble, hd, hi]
  rfl

theorem takeWhile_name {n r : List Char} (h : '=' ∉ n) : (n ++ '=' :: r).takeWhile (· != '=') = n :=
  takeWhile_word (fun c hc => by simp; rintro rfl; exact h hc) (fun c hc => by simp at hc; simp [← hc])

theorem skipBlanks_self {s : List Char} (h : ∀ c, s.head? = some c → ¬ Blank c) : skipBlanks s = s := by
  cases s with
  | nil => rfl
  | cons c s => exact skipBlanks_stop (h c rfl)

theorem setEval_split (L : FloatOps D) (V : VarOps σ D) (old : Bool) (s : σ) {n t : List Char} (hn : '=' ∉ n)
    (hb : ∀ c, (n ++ '=' :: t).head? = some c → ¬ Blank c) :
    setEval L V old s (n ++ '=' :: t) = (evaluate L V old s t >>= fun r =>
      match assignOp n with
      | none => .ok (V.put r.1 n (L.print r.2.1), r.2.2, true)
      | some (rd, wr, o, onInt) => assignVal L o onInt r.2.2 (V.get r.1 rd) r.2.1 >>= fun v => .ok (V.put r.1 wr (L.print v), r.2.2, true)) := by
  unfold setEval
  simp only [skipBlanks_self hb, takeWhile_name hn]
  rw [if_neg (by simp)]
  have hd : (n ++ '=' :: t).drop (n.length + 1) = t := by simp [List.drop_append]
  simp only [hd, Nat.sub_self, List.take_zero, List.nil_append]
  rfl

/-- One assignment. -/
theorem setEval_assigns {L : FloatOps D} {V : VarOps σ D} {Rep : D → Int → Prop} (FL : FloatLaws L Rep) (VL : VarLaws L V) {a : List Char}
    {st st1 : List Char → Int} (h : Assigns L st a st1) {s : σ} (hs : HoldsInts V Rep s st) (old : Bool) :
    ∃ s', setEval L V old s a = .ok (s', false, true) ∧ HoldsInts V Rep s' st1 := by
  have hput : ∀ {s' : σ} {st' : List Char → Int} {n : List Char} {v : Int}, HoldsInts V Rep s' st' → InInt v →
      HoldsInts V Rep (V.put s' n (intText v)) (assignInt st' n v) := by
    intro s' st' n v hh hin m
    rw [VL.put _ _ _ _ hin]
    unfold assignInt
    split
    · exact FL.ofInt _ hin
    · exact hh m
  cases h with
  | @plain n t e v ex st' hn hb hl ht hv =>
    obtain ⟨s', he, hh, hin⟩ := evaluate_text FL VL ht hv hs old
    have ha : assignOp n = none := by
      unfold assignOp
      simp only
      cases hg : n.getLast? with
      | none => rfl
      | some c =>
        have := hl c hg
        split <;> first | rfl | (rename_i hc; injection hc with hc; subst hc; exact absurd (by decide) this)
    refine ⟨V.put s' n (intText v), ?_, hput hh hin⟩
    rw [setEval_split L V old s hn hb, he, ha]
    simp only [Res.ok_bind]
    rw [FL.print _ v (FL.ofInt v hin) hin (.inl rfl)]
  | @comp n t e v ex st' o w hn hb ho hl ht hv hw hin1 hinw h0 =>
    obtain ⟨s', he, hh, hin⟩ := evaluate_text FL VL ht hv hs old
    have hno : '=' ∉ n ++ opText o := by
      rw [List.mem_append, not_or]
      refine ⟨hn, ?_⟩
      cases o <;> decide
    have ha : assignOp (n ++ opText o) = some (trim n, trim n, o, o.bitwise) := by
      have hand : n.getLast? ≠ some '&' := fun h => absurd (by decide) (hl _ h)
      have hor : n.getLast? ≠ some '|' := fun h => absurd (by decide) (hl _ h)
      unfold assignOp
      cases o <;> first | (simp at ho; done) | skip
      all_goals simp [opText, hand, hor, adjustVarName_eq, BOp.bitwise]
    have hgo : setEval L V old s (n ++ opText o ++ '=' :: t) =
        (assignVal L o o.bitwise false (V.get s' (trim n)) (L.ofInt v) >>= fun x => .ok (V.put s' (trim n) (L.print x), false, true)) := by
      rw [setEval_split L V old s hno hb, he, ha]
      rfl
    have hval : ∃ x, assignVal L o o.bitwise false (V.get s' (trim n)) (L.ofInt v) = .ok x ∧ L.print x = intText w := by
      have hr1 := hh (trim n)
      have hr2 := FL.ofInt v hin
      unfold assignVal
      by_cases hc : (o.bitwise || (o == .div && !false)) = true
      · rw [if_pos hc, intOfFloat_meaning FL (by rintro rfl; cases hc) hr1 hr2 hin1 hin hw hinw]
        exact ⟨_, rfl, FL.print _ _ (FL.ofInt w hinw) hinw (.inl rfl)⟩
      · rw [if_neg hc]
        refine ⟨_, rfl, ?_⟩
        have hw0 : w ≠ 0 := by
          intro e0
          have := h0 e0
          cases o <;> simp_all [BOp.bitwise]
        refine FL.print _ _ ?_ hinw (.inr hw0)
        cases o <;> simp [BOp.bitwise] at hc <;> simp only [opMeaning] at hw <;> simp only [floatOp]
        · cases hw; exact FL.sub _ _ _ _ hr1 hr2 hin1 hin hinw
        · cases hw; exact FL.add _ _ _ _ hr1 hr2 hin1 hin hinw
        · cases hw; exact FL.mul _ _ _ _ hr1 hr2 hin1 hin hinw
        · split at hw
          · cases hw
          · rename_i h00
            cases hw
            exact FL.fmod _ _ _ _ hr1 hr2 hin1 hin h00
    obtain ⟨x, hx, hpr⟩ := hval
    refine ⟨V.put s' (trim n) (intText w), ?_, ?_⟩
    · rw [hgo, hx]
      simp only [Res.ok_bind, hpr]
    · have := hput (n := trim n) hh hinw
      intro m
      have := this m
      unfold assignInt key at this ⊢
      rwa [trim_trim] at this

theorem Lead_or {p : Char → Bool} {d e : Char} (hp : ∀ c, p c = true ↔ c = d ∨ c = e) {E : List Char} (hd : Lead d E) (he : Lead e E) :
    (∀ i, ¬ Hit p E i) ∧ Free E E.length := by
  refine ⟨?_, hd.2⟩
  rintro i ⟨⟨c, hc, hpc⟩, hf⟩
  rcases (hp c).1 hpc with rfl | rfl
  · exact hd.1 i ⟨⟨c, hc, by simp⟩, hf⟩
  · exact he.1 i ⟨⟨c, hc, by simp⟩, hf⟩

/-- A parameter written with the delimiters escaped, followed by the end or by a delimiter. -/
theorem nextParam_escapedD {p q : Char → Bool} {d : Char} (hd : d ≠ '"') (hdc : d ≠ '^') (hp : ∀ c, p c = true ↔ c = '"' ∨ c = d)
    (hq : q '"' = true) (hqd : q d = true) (hqc : q '^' = true) (ex : List Char → Res (List Char)) {w a tail : List Char}
    (hw : ∀ c ∈ w, Blank c) (ha : a ≠ []) (hb : ∀ c, a.head? = some c → ¬ Blank c) (ht : tail = [] ∨ ∃ r, tail = d :: r) :
    nextParam p ex (w ++ (escape q a ++ tail)) = (ex (escape q a) >>= fun t => pure (some (t, tail))) := by
  have hno := Lead_or hp (Lead_escape (d := '"') (by decide) hq hqc a) (Lead_escape (d := d) hdc hqd hqc a)
  have hhead : ∃ c r, escape q a = c :: r ∧ ¬ Blank c ∧ c ≠ '"' := by
    cases a with
    | nil => exact absurd rfl ha
    | cons c a =>
      unfold escape
      split
      · exact ⟨'^', _, rfl, by decide, by decide⟩
      · rename_i hqc'
        exact ⟨c, _, rfl, hb c rfl, by rintro rfl; exact hqc' hq⟩
  obtain ⟨c, r, hE, hcb, hcq⟩ := hhead
  have hsk : skipBlanks (w ++ (escape q a ++ tail)) = escape q a ++ tail := by
    rw [skipBlanks_append hw, hE, List.cons_append, skipBlanks_stop hcb]
  have hpe : paramEnd p (escape q a ++ tail) 0 = if tail = [] then none else some (escape q a).length := by
    have hst : searchTok p (escape q a ++ tail) = if tail = [] then none else some (escape q a).length := by
      apply IsFirst_unique (searchTok_first _ _)
      rcases ht with rfl | ⟨r', rfl⟩
      · rw [List.append_nil, if_pos rfl]; exact hno.1
      · rw [if_neg (by simp)]
        refine ⟨⟨⟨d, by simp, (hp d).2 (.inr rfl)⟩, (Free_prefix _ _).2 hno.2⟩, ?_⟩
        intro j hj
        rw [Hit_prefix _ _ _ _ hj]
        exact hno.1 j
    rw [paramEnd.eq_1]
    have hsf : searchFrom p (escape q a ++ tail) 0 = if tail = [] then none else some (escape q a).length := by
      unfold searchFrom
      rw [List.drop_zero, hst]
      split <;> simp
    rcases ht with rfl | ⟨r', rfl⟩
    · rw [if_pos rfl] at hsf ⊢
      split
      · rfl
      · rename_i h0; rw [hsf] at h0; exact absurd h0 (by simp)
    · rw [if_neg (by simp)] at hsf ⊢
      split
      · rename_i h0; rw [hsf] at h0; exact absurd h0 (by simp)
      · rename_i i h0
        rw [hsf] at h0
        injection h0 with h0
        subst h0
        rw [if_neg (by simp; exact hd)]
  have htext : paramText (escape q a ++ tail) (if tail = [] then none else some (escape q a).length) = .ok (escape q a) := by
    rw [hE]
    split
    · rename_i h; subst h
      simp [paramText, hcq]
    · simp [paramText, hcq]
  rw [nextParam_eq p ex _ (escape q a) (by rw [hsk, hE]; simp) (by rw [hsk, hpe]; exact htext) tail
    (by rw [hsk, hpe]; exact restAt_eq _ _), if_neg (escape_ne_caret hqc a)]

theorem assigns_head {L : FloatOps D} {st st1 : List Char → Int} {a : List Char} (h : Assigns L st a st1) :
    a ≠ [] ∧ ∀ c, a.head? = some c → ¬ Blank c := by
  cases h with
  | plain _ hb _ _ _ => exact ⟨by simp, hb⟩
  | comp _ hb _ _ _ _ _ _ _ _ => exact ⟨by simp, hb⟩

/-- The whole command. -/
theorem setA_line {L : FloatOps D} {V : VarOps σ D} {Rep : D → Int → Prop} (FL : FloatLaws L Rep) (VL : VarLaws L V) {q : Char → Bool}
    (hq : q '"' = true) (hqd : q ',' = true) (hqc : q '^' = true) (ex : List Char → Res (List Char)) (hex : ∀ a, ex (escape q a) = .ok a)
    {line : List Char} {st st' : List Char → Int} (h : SetLine L q st line st') {s : σ} (hs : HoldsInts V Rep s st) (old : Bool)
    (u : List Char) (hu : ∀ c ∈ u, Blank c) :
    ∃ s' fm, setA L V ex old s (u ++ line) = .ok (s', fm, true) ∧ HoldsInts V Rep s' st' := by
  induction h generalizing s old u with
  | @done st w hw =>
    have : skipBlanks (u ++ w) = [] := by
      have := skipBlanks_append (w := u ++ w) (s := []) (by
        intro c hc
        rcases List.mem_append.1 hc with hc | hc
        · exact hu c hc
        · exact hw c hc)
      simpa [skipBlanks] using this
    rw [setA.eq_1, nextParam_nil _ _ _ this]
    exact ⟨s, old, rfl, hs⟩
  | @cons st w a st1 rest st2 hw ha ht _ ih =>
    obtain ⟨hne, hhd⟩ := assigns_head ha
    have hn := nextParam_escapedD (p := fun c => c == '"' || c == ',') (q := q) (d := ',') (by decide) (by decide) (by simp) hq hqd hqc ex
      (w := u ++ w) (a := a) (tail := rest) (by
        intro c hc
        rcases List.mem_append.1 hc with hc | hc
        · exact hu c hc
        · exact hw c hc) hne hhd ht
    rw [hex a] at hn
    simp only [Res.ok_bind, Res.pure_eq] at hn
    obtain ⟨s1, he, hh⟩ := setEval_assigns FL VL ha hs old
    obtain ⟨s2, fm, hgo, hh2⟩ : ∃ s' fm, setA L V ex false s1 rest = .ok (s', fm, true) ∧ HoldsInts V Rep s' st2 := ih hh false [] (by simp)
    refine ⟨s2, fm, ?_, hh2⟩
    have hlen : (escape q a).length ≠ 0 := by
      cases a with
      | nil => exact absurd rfl hne
      | cons c a => unfold escape; split <;> simp
    rw [← List.append_assoc, setA.eq_1, hn]
    simp only
    rw [if_pos (by simp; omega), he]
    simp only [Res.ok_bind]
    exact hgo

end PBat
