import Verif.Spec.Prompt
import Verif.Lemmas.Env
/-
Helper lemmas for colours and prompts.
-/
namespace PBat
open Spec

instance colourAll (P : Colour → Prop) [DecidablePred P] : Decidable (∀ b, P b) :=
  decidable_of_iff (P none ∧ ∀ d : Fin 16, P (some d))
    ⟨fun h b => by cases b with | none => exact h.1 | some d => exact h.2 d, fun h => ⟨h none, fun d => h (some d)⟩⟩

/-- The bits of a background. -/
def encBack : Colour → Nat
  | none => 0x100
  | some d => backColor d.val

/-- The bits of a text colour. -/
def encFore : Colour → Nat
  | none => 0x200
  | some d => foreColor d.val

/-- `colColor` holds the colours `b` and `f`. -/
def Holds (col : Nat) (b f : Colour) : Prop := col &&& 0x1F0 = encBack b ∧ col &&& 0x20F = encFore f

theorem digit_eq {d : Fin 16} {c : Char} (h : colourDigit d c) : colorDigit c = some d.val := by
  unfold colourDigit at h
  have : ∀ (d : Fin 16) (l : Char), "0123456789abcdef".toList[d.val]? = some l →
      (if '0'.toNat ≤ l.toNat ∧ l.toNat ≤ '9'.toNat then some (l.toNat - '0'.toNat)
       else if 'a'.toNat ≤ l.toNat ∧ l.toNat ≤ 'f'.toNat then some (10 + l.toNat - 'a'.toNat) else none) = some d.val := by
    intro d l hl
    have key : ∀ d : Fin 16, (fun l : Char => (if '0'.toNat ≤ l.toNat ∧ l.toNat ≤ '9'.toNat then some (l.toNat - '0'.toNat)
       else if 'a'.toNat ≤ l.toNat ∧ l.toNat ≤ 'f'.toNat then some (10 + l.toNat - 'a'.toNat) else none))
        (("0123456789abcdef".toList[d.val]?).getD 'z') = some d.val := by decide
    have := key d
    rw [hl] at this
    exact this
  exact this d c.toLower h

theorem dot_digit : colorDigit '.' = none := by decide

theorem back_names {col : Nat} {b b' f : Colour} {c : Char} (h : Holds col b f) (hn : Names b c b') :
    backOf col c = some (encBack b') := by
  unfold backOf
  cases hn with
  | digit hd => rw [digit_eq hd]; rfl
  | dot => rw [dot_digit]; simp only [if_true]; rw [h.1]

theorem fore_names {col : Nat} {b f f' : Colour} {c : Char} (h : Holds col b f) (hn : Names f c f') :
    foreOf col c = some (encFore f') := by
  unfold foreOf
  cases hn with
  | digit hd => rw [digit_eq hd]; rfl
  | dot => rw [dot_digit]; simp only [if_true]; rw [h.2]

theorem code_names {col : Nat} {b b' f f' : Colour} {cb cf : Char} (h : Holds col b f) (hb : Names b cb b') (hf : Names f cf f') :
    getColorCode col [cb, cf] = some (encFore f' ||| encBack b') := by
  simp only [getColorCode]
  rw [back_names h hb, fore_names h hf]
  rfl

theorem holds_code (b f : Colour) : Holds (encFore f ||| encBack b) b f := by
  unfold Holds
  revert b f
  decide +kernel

theorem setText_shows (s : Screen) (b f : Colour) : (setTextColor (encFore f ||| encBack b)).foldl Screen.sgr s = showing b f := by
  have key : ∀ b f : Colour, setTextColor (encFore f ||| encBack b) = [ansi 40 100 b, ansi 30 90 f] ∨
      setTextColor (encFore f ||| encBack b) = [ansi 30 90 f, ansi 40 100 b] := by decide +kernel
  have hb : ∀ (s : Screen) (b : Colour), s.sgr (ansi 40 100 b) = { s with back := ansi 40 100 b } := by
    intro s b
    unfold Screen.sgr
    rw [if_pos]
    revert b
    decide
  have hf : ∀ (s : Screen) (f : Colour), s.sgr (ansi 30 90 f) = { s with fore := ansi 30 90 f } := by
    intro s f
    unfold Screen.sgr
    rw [if_neg, if_pos]
    · revert f; decide
    · revert f; decide
  rcases key b f with h | h <;> rw [h] <;> simp only [List.foldl_cons, List.foldl_nil, hb, hf] <;> rfl

theorem promptColor_two (col : Nat) (a b : Char) (t : List Char) (hb : b ≠ ';') :
    promptColor col (a :: b :: ';' :: t) = (((getColorCode col [a, b]).map Piece.color).toList, t) := by
  simp only [promptColor, if_neg hb, if_true]

theorem names_ne_semi {cur : Colour} {c : Char} {b : Colour} (h : Names cur c b) : c ≠ ';' := by
  rintro rfl
  cases h with
  | digit hd =>
    have := digit_eq hd
    revert this
    simp [show colorDigit ';' = none from by decide]

theorem table_code {e : PromptCtx} (hd : e.dir ≠ []) {l : Char} {t : List Char} (h : (l, t) ∈ promptTable e) :
    promptCode e l = t ∧ l ≠ 'x' := by
  unfold promptTable at h
  simp only [List.mem_cons, List.not_mem_nil, or_false, Prod.mk.injEq] at h
  rcases h with ⟨rfl, rfl⟩ | ⟨rfl, rfl⟩ | ⟨rfl, rfl⟩ | ⟨rfl, rfl⟩ | ⟨rfl, rfl⟩ | ⟨rfl, rfl⟩ | ⟨rfl, rfl⟩ | ⟨rfl, rfl⟩ | ⟨rfl, rfl⟩ |
    ⟨rfl, rfl⟩ | ⟨rfl, rfl⟩ | ⟨rfl, rfl⟩ | ⟨rfl, rfl⟩ | ⟨rfl, rfl⟩ | ⟨rfl, rfl⟩ | ⟨rfl, rfl⟩ | ⟨rfl, rfl⟩ | ⟨rfl, rfl⟩ | ⟨rfl, rfl⟩ <;>
    refine ⟨?_, by decide⟩
  case inr.inr.inr.inr.inr.inr.inr.inr.inr.inl =>
    cases hh : e.dir with
    | nil => exact absurd hh hd
    | cons c r => simp [promptCode, hh]
  all_goals rfl

theorem promptOut_plain {e : PromptCtx} {c : Char} (h : c ≠ '$') (s : List Char) : promptOut e (c :: s) = Piece.char c :: promptOut e s := by
  cases s with
  | nil => rw [promptOut.eq_2, if_neg h, promptOut]
  | cons d s => rw [promptOut, if_neg h]

theorem promptOut_code {e : PromptCtx} {c : Char} (h : c.toLower ≠ 'x') (s : List Char) :
    promptOut e ('$' :: c :: s) = (promptCode e c.toLower).map Piece.char ++ promptOut e s := by
  rw [promptOut, if_pos rfl, if_neg h]

theorem promptOut_color {e : PromptCtx} {c : Char} (h : c.toLower = 'x') (s : List Char) :
    promptOut e ('$' :: c :: s) = (promptColor e.col s).1 ++ promptOut e (promptColor e.col s).2 := by
  rw [promptOut, if_pos rfl, if_pos h]

theorem receives_append (s : Screen) (p q : List Piece) :
    receives s (p ++ q) = ((receives s p).1 ++ (receives (receives s p).2 q).1, (receives (receives s p).2 q).2) := by
  induction p generalizing s with
  | nil => rfl
  | cons x p ih =>
    cases x with
    | char c => simp only [List.cons_append, receives, ih]
    | color n => simp only [List.cons_append, receives, ih]

theorem receives_chars (s : Screen) (t : List Char) : receives s (t.map Piece.char) = (t.map (·, s), s) := by
  induction t with
  | nil => rfl
  | cons c t ih => simp only [List.map_cons, receives, ih]

theorem look_append (s : Screen) (p q : List Shown) :
    look s (p ++ q) = ((look s p).1 ++ (look (look s p).2 q).1, (look (look s p).2 q).2) := by
  induction p generalizing s with
  | nil => rfl
  | cons x p ih =>
    cases x with
    | char c => simp only [List.cons_append, look, ih]
    | colour b f => simp only [List.cons_append, look, ih]

theorem look_chars (s : Screen) (t : List Char) : look s (t.map Shown.char) = (t.map (·, s), s) := by
  induction t with
  | nil => rfl
  | cons c t ih => simp only [List.map_cons, look, ih]

end PBat
