import Verif.Spec.Batbox
import Verif.Lemmas.Num
/-
Lemmas about BATBOX.
-/
namespace PBat.Box
open Spec

theorem getch_nil : getch [] = (-1, []) := by simp [getch, getchAux]

theorem getch_plain {k : Nat} (r : List Nat) (h : k ≠ 27) : getch (k :: r) = ((k : Int), r) := by
  simp [getch, getchAux, h]

theorem getch_esc (r : List Nat) : getch (27 :: r) =
    (if (getch r).1 = 91 then
      let p := getch (getch r).2
      if p.1 = 65 then (72, p.2) else if p.1 = 66 then (80, p.2) else if p.1 = 67 then (77, p.2) else if p.1 = 68 then (75, p.2)
      else if p.1 = 70 then (79, p.2) else if p.1 = 72 then (71, p.2) else if p.1 = 50 then (82, (getch p.2).2)
      else if p.1 = 51 then (83, (getch p.2).2) else if p.1 = 53 then (73, (getch p.2).2) else if p.1 = 54 then (81, (getch p.2).2)
      else if p.1 = 77 then (-2, p.2) else (-1, p.2)
    else (27, (getch r).2)) := by
  unfold getch
  rw [getchAux, if_pos rfl]
  rcases getchAux r with ⟨⟨c2, r2⟩, h2⟩
  dsimp only
  by_cases hc : c2 = 91
  · rw [if_pos hc, if_pos hc]
    rcases getchAux r2 with ⟨⟨c3, r3⟩, h3⟩
    dsimp only
    simp only [apply_ite Subtype.val]
  · rw [if_neg hc, if_neg hc]

theorem getch_mouse (r : List Nat) : getch (27 :: 91 :: 77 :: r) = (-2, r) := by
  rw [getch_esc, getch_plain _ (by decide), if_pos (show ((91 : Nat) : Int) = 91 from rfl)]
  simp only [getch_plain _ (show (77 : Nat) ≠ 27 by decide)]
  rfl

theorem waitMouse_typed (typed r : List Nat) (h : ∀ k ∈ typed, k ≠ 27) : waitMouse (typed ++ 27 :: 91 :: 77 :: r) = .ok r := by
  induction typed with
  | nil => rw [List.nil_append, waitMouse]; simp [getch_mouse]
  | cons k t ih =>
    rw [List.cons_append, waitMouse]
    have hk := h k (by simp)
    simp only [getch_plain _ hk]
    rw [if_neg (by omega), if_pos (by simp), ih (fun x hx => h x (List.mem_cons_of_mem _ hx))]

theorem waitMouse_end (typed : List Nat) (h : ∀ k ∈ typed, k ≠ 27) : waitMouse typed = .hang := by
  induction typed with
  | nil => rw [waitMouse]
  | cons k t ih =>
    rw [waitMouse]
    have hk := h k (by simp)
    simp only [getch_plain _ hk]
    rw [if_neg (by omega), if_pos (by simp), ih (fun x hx => h x (List.mem_cons_of_mem _ hx))]

theorem toMouse_kind {m : Bool} {b : Nat} {t : Int} (h : MouseKind m b t) : (toMouse 8 ((32 + b : Nat) : Int)).1 = t := by
  have hb : b < 96 := by cases h <;> omega
  have key : ∀ (k : Fin 8), (toMouse 8 ((32 + (4 * k.val) : Nat) : Int)).1 = 1 ∧ (toMouse 8 ((32 + (4 * k.val + 2) : Nat) : Int)).1 = 2 ∧
      (toMouse 8 ((32 + (4 * k.val + 1) : Nat) : Int)).1 = 5 ∧ (toMouse 8 ((32 + (4 * k.val + 64) : Nat) : Int)).1 = 6 ∧
      (toMouse 8 ((32 + (4 * k.val + 65) : Nat) : Int)).1 = 7 ∧ (toMouse 8 ((32 + (4 * k.val + 35) : Nat) : Int)).1 = 0 ∧
      (toMouse 8 ((32 + (4 * k.val + 32) : Nat) : Int)).1 = 1 ∧ (toMouse 8 ((32 + (4 * k.val + 34) : Nat) : Int)).1 = 2 ∧
      (toMouse 8 ((32 + (4 * k.val + 33) : Nat) : Int)).1 = 5 := by decide
  cases h with
  | left hm => exact (key ⟨_, hm⟩).1
  | right hm => exact (key ⟨_, hm⟩).2.1
  | middle hm => exact (key ⟨_, hm⟩).2.2.1
  | up hm => exact (key ⟨_, hm⟩).2.2.2.1
  | down hm => exact (key ⟨_, hm⟩).2.2.2.2.1
  | move hm _ => exact (key ⟨_, hm⟩).2.2.2.2.2.1
  | leftMove hm _ => exact (key ⟨_, hm⟩).2.2.2.2.2.2.1
  | rightMove hm _ => exact (key ⟨_, hm⟩).2.2.2.2.2.2.2.1
  | middleMove hm _ => exact (key ⟨_, hm⟩).2.2.2.2.2.2.2.2

theorem alpha_plain {c : Char} (h : c.isAlpha) : isSpace c = false ∧ c ≠ '-' ∧ c ≠ '+' ∧ c ≠ '0' ∧ ¬ digitVal c < 10 := by
  have h1 : c.toNat < 128 := by
    unfold Char.isAlpha Char.isUpper Char.isLower at h
    simp only [Bool.or_eq_true, Bool.and_eq_true, decide_eq_true_eq] at h
    have e1 : ('Z' : Char).val.toNat = 90 := rfl
    have e2 : ('z' : Char).val.toNat = 122 := rfl
    rcases h with h | h
    · have := UInt32.le_iff_toNat_le.1 h.2; rw [e1] at this; show c.val.toNat < 128; omega
    · have := UInt32.le_iff_toNat_le.1 h.2; rw [e2] at this; show c.val.toNat < 128; omega
  have key : ∀ n : Fin 128, (Char.ofNat n.val).isAlpha → isSpace (Char.ofNat n.val) = false ∧ Char.ofNat n.val ≠ '-' ∧
      Char.ofNat n.val ≠ '+' ∧ Char.ofNat n.val ≠ '0' ∧ ¬ digitVal (Char.ofNat n.val) < 10 := by decide +kernel
  have := key ⟨c.toNat, h1⟩
  simp only [Char.ofNat_toNat] at this
  exact this h

theorem strtol0_alpha {c : Char} (t : List Char) (h : c.isAlpha) : (strtol0 (c :: t)).2 = c :: t := by
  obtain ⟨h1, h2, h3, h4, h5⟩ := alpha_plain h
  unfold strtol0 strtolVal
  simp only
  rw [List.dropWhile_cons, h1]
  have hs : scanNumber (c :: t) = none := by
    unfold scanNumber
    split
    · rename_i heq; simp at heq
    · rename_i heq; simp at heq; exact absurd heq.1 h4
    · rename_i heq; simp at heq; obtain ⟨rfl, rfl⟩ := heq; rw [if_neg h5]
  simp only [Bool.false_eq_true, if_false]
  split
  · rename_i heq; simp at heq; exact absurd heq.1 h2
  · rename_i heq; simp at heq; exact absurd heq.1 h3
  · rw [hs]

theorem getNumber_box {E} {V : Env E} {e : E} {t : List Char} {n : Int} (h : BoxNum V e t n) : getNumber V e t = n := by
  have key : ∀ (t : List Char) (n : Int), Number t n → -2 ^ 31 ≤ n → n < 2 ^ 31 → strtol0 t = (n, []) := fun t n h h1 h2 => by
    have := strtol0_number h [] (by simp [NumEnd]) (by omega) (by omega)
    rwa [List.append_nil] at this
  unfold getNumber
  cases h with
  | lit h h1 h2 => rw [key t n h h1 h2]; simp only [ne_eq, not_true, if_false]; exact longToInt_id h1 h2
  | var hc hg h h1 h2 =>
    rw [if_pos (by rw [strtol0_alpha _ hc]; simp), hg]
    simp only
    rw [key _ n h h1 h2]
    exact longToInt_id h1 h2

theorem toShort_cell {n : Int} (h : BoxCell n) : toShort n = n := by
  obtain ⟨h1, h2⟩ := h; unfold toShort; omega

theorem cursorTo_act (x y : Int) : Act.put (cursorTo x y) = (BoxEffect.go x y).act := by
  simp [cursorTo, BoxEffect.act, intText_toString]

theorem color_act (b f : Fin 16) :
    Act.put (colorText (portable ((16 * b.val + f.val : Nat) : Int))) = (BoxEffect.colours b f).act := by
  have : ∀ b f : Fin 16, setTextColor (portable ((16 * b.val + f.val : Nat) : Int)) = [ansi 40 100 (some b), ansi 30 90 (some f)] := by
    decide +kernel
  unfold colorText
  rw [this b f]
  simp [BoxEffect.act, natText_toString]

theorem mousePos_report {E} (s : St E) (m : Bool) (typed rest : List Nat) (b x y : Nat) (t : Int) (hk : s.keys = typed ++ mouseReport b x y ++ rest)
    (ht : ∀ k ∈ typed, k ≠ 27) (hb : MouseKind m b t) (hx : x < 223) (hy : y < 223) :
    mousePos s m = .ok ((x, y, t), { s with keys := rest, acts := s.acts ++ [(BoxEffect.tracking m true).act, (BoxEffect.tracking m false).act] }) := by
  unfold mousePos
  simp only [St.act]
  rw [hk]
  simp only [mouseReport, List.append_assoc, List.cons_append, List.nil_append]
  rw [waitMouse_typed _ _ ht]
  show Res.ok _ = _
  have e1 : getch ((32 + b) :: (33 + x) :: (33 + y) :: rest) = (((32 + b : Nat) : Int), (33 + x) :: (33 + y) :: rest) := getch_plain _ (by omega)
  have e2 : getch ((33 + x) :: (33 + y) :: rest) = (((33 + x : Nat) : Int), (33 + y) :: rest) := getch_plain _ (by omega)
  have e3 : getch ((33 + y) :: rest) = (((33 + y : Nat) : Int), rest) := getch_plain _ (by omega)
  rw [e1]; simp only; rw [e2]; simp only; rw [e3]; simp only
  rw [toMouse_kind hb, show toShort (((33 + x : Nat) : Int) - 33) = x by unfold toShort; omega,
    show toShort (((33 + y : Nat) : Int) - 33) = y by unfold toShort; omega]
  cases m <;> simp [BoxEffect.act, intText_toString] <;> decide +kernel

end PBat.Box
