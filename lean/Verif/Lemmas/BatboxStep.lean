import Verif.Lemmas.Batbox
/-
One subcommand of BATBOX.
-/
namespace PBat.Box
open Spec

theorem step_first {E} {V : Env E} {v v' : BoxState E} {w k h e} (hs : BoxStep V v w k h e v') : ∃ p r, w = ('/' :: p) :: r := by
  cases hs with
  | noKey => exact ⟨_, _, rfl⟩
  | mouseVars hp => rcases hp with (rfl | rfl) | _ | _ <;> exact ⟨_, _, rfl⟩
  | mousePrint hp => rcases hp with (rfl | rfl) | _ | _ <;> exact ⟨_, _, rfl⟩
  | _ hp => rcases hp with rfl | rfl <;> exact ⟨_, _, rfl⟩

theorem noSwitch_name {v : List Char} (h : BoxName v) : noSwitch v = true := by
  simp [noSwitch, h.1, h.2]

theorem addInt_cell {a b : Int} (h : BoxCell (a + b)) : addInt a b = .ok (a + b) := by
  obtain ⟨h1, h2⟩ := h; unfold addInt; rw [if_pos]; omega

theorem mouse_args {p : List Char} {m : Bool} (h : MouseSwitch p m) :
    (∀ c ∈ "adnoghwckl".toList, isSwitch c p = false) ∧ (isSwitch 'y' p || isSwitch 'm' p) = true ∧
      (p[1]? == some 'y' || (p[1]? == some 'm' && p[2]? == some '_')) = m := by
  rcases h with (rfl | rfl) | _ | _ <;> decide

/-- What `/m` does. -/
theorem batbox_mouse {E} (V : Env E) (s : St E) (p : List Char) (m : Bool) (r : List (List Char)) (h : MouseSwitch p m) :
    batbox V s (p :: r) = match mousePos s m with
      | .ub => .ub
      | .hang => .hang
      | .ok (m, s) =>
        match r with
        | x :: y :: t :: r' =>
          if noSwitch x && noSwitch y && noSwitch t then batbox V (mouseDone V s m.1 m.2.1 m.2.2 (some (x, y, t))) r'
          else batbox V (mouseDone V s m.1 m.2.1 m.2.2 none) (x :: y :: t :: r')
        | r' => batbox V (mouseDone V s m.1 m.2.1 m.2.2 none) r' := by
  obtain ⟨h1, h2, h3⟩ := mouse_args h
  have hk : (isSwitch 'k' p || isSwitch 'l' p) = false := by rw [h1 'k' (by decide), h1 'l' (by decide)]; rfl
  rw [batbox.eq_def]
  simp only [h1 'a' (by decide), h1 'd' (by decide), h1 'n' (by decide), h1 'o' (by decide), h1 'g' (by decide), h1 'h' (by decide),
    h1 'w' (by decide), h1 'c' (by decide), hk, h2, h3, Bool.false_eq_true, if_false, if_true]
  rfl

theorem batbox_mouse_names {E} (V : Env E) (s s2 : St E) (p : List Char) (m : Bool) (X Y T : List Char) (r : List (List Char))
    (x y t : Int) (h : MouseSwitch p m) (hX : BoxName X) (hY : BoxName Y) (hT : BoxName T) (hm : mousePos s m = .ok ((x, y, t), s2)) :
    batbox V s (p :: X :: Y :: T :: r) = batbox V (mouseDone V s2 x y t (some (X, Y, T))) r := by
  rw [batbox_mouse V s p m _ h, hm]
  simp only [noSwitch_name hX, noSwitch_name hY, noSwitch_name hT, Bool.and_true, if_true]

theorem batbox_mouse_print {E} (V : Env E) (s s2 : St E) (p : List Char) (m : Bool) (r : List (List Char))
    (x y t : Int) (h : MouseSwitch p m) (hr : ∀ x ∈ r.head?, x.head? = some '/') (hm : mousePos s m = .ok ((x, y, t), s2)) :
    batbox V s (p :: r) = batbox V (mouseDone V s2 x y t none) r := by
  rw [batbox_mouse V s p m _ h, hm]
  match r, hr with
  | [], _ => rfl
  | [a], _ => rfl
  | [a, b], _ => rfl
  | a :: b :: c :: r', hr =>
    have := hr a (by simp)
    simp [noSwitch, this]

theorem batbox_step {E} (V : Env E) (s : St E) (v v' : BoxState E) (w : List (List Char)) (k : List Nat) (h : List Bool)
    (e : List BoxEffect) (hv : BoxView s v) (hs : BoxStep V v w k h e v') (rest : List (List Char))
    (hr : ∀ x ∈ rest.head?, x.head? = some '/') (ks : List Nat) (bs : List Bool) (hk : s.keys = k ++ ks) (hb : s.hits = h ++ bs) :
    ∃ s', batbox V s (w ++ rest) = batbox V s' rest ∧ BoxView s' v' ∧ s'.keys = ks ∧ s'.hits = bs ∧
      s'.acts = s.acts ++ e.map BoxEffect.act := by
  obtain ⟨ho, hl, he⟩ := hv
  cases hs with
  | @chr p t n hp hn hlt =>
    refine ⟨s.act (.put [Char.ofNat n]), ?_, ⟨ho, hl, he⟩, hk, hb, rfl⟩
    have e1 : isSwitch 'a' p = true := by rcases hp with rfl | rfl <;> decide
    rw [List.cons_append, List.cons_append, List.nil_append, batbox]
    rw [if_pos e1, ← he, getNumber_box hn, show lowByte (n : Int) = Char.ofNat n by unfold lowByte; congr 1; omega]
  | @str p t hp =>
    refine ⟨s.act (.put t), ?_, ⟨ho, hl, he⟩, hk, hb, rfl⟩
    rw [List.cons_append, List.cons_append, List.nil_append, batbox]
    rcases hp with rfl | rfl <;> rfl
  | @go p t u x y hp hx hy cx cy =>
    have h1 : v.origin.1 = s.origX := by rw [ho]
    have h2 : v.origin.2 = s.origY := by rw [ho]
    rw [h1] at cx; rw [h2] at cy
    refine ⟨{ s with lastX := s.origX + x, lastY := s.origY + y }.act (.put (cursorTo (s.origX + x) (s.origY + y))), ?_,
      ⟨ho, by rw [h1, h2]; rfl, he⟩, hk, hb, by rw [h1, h2]; simp only [St.act, cursorTo_act]; rfl⟩
    have : batbox V s (p :: t :: u :: rest) = (do
        let x ← addInt s.origX (getNumber V s.env t)
        let y ← addInt s.origY (getNumber V s.env u)
        batbox V ({ s with lastX := toShort x, lastY := toShort y }.act (.put (cursorTo (toShort x) (toShort y)))) rest) := by
      rw [batbox]
      rcases hp with rfl | rfl <;> rfl
    rw [List.cons_append, List.cons_append, List.cons_append, List.nil_append, this, ← he, getNumber_box hx, getNumber_box hy,
      addInt_cell cx, addInt_cell cy]
    show batbox V _ rest = _
    rw [toShort_cell cx, toShort_cell cy]
  | @origin p t u x y hp hx hy cx cy =>
    refine ⟨{ s with origX := x, origY := y }, ?_, ⟨rfl, hl, he⟩, hk, hb, by simp⟩
    have : batbox V s (p :: t :: u :: rest) =
        batbox V { s with origX := toShort (getNumber V s.env t), origY := toShort (getNumber V s.env u) } rest := by
      rw [batbox]
      rcases hp with rfl | rfl <;> rfl
    rw [List.cons_append, List.cons_append, List.cons_append, List.nil_append, this, ← he, getNumber_box hx, getNumber_box hy,
      toShort_cell cx, toShort_cell cy]
  | @next p hp c =>
    have h1 : v.last.1 = s.lastX := by rw [hl]
    have h2 : v.last.2 = s.lastY := by rw [hl]
    rw [h2] at c
    refine ⟨{ s with lastY := s.lastY + 1 }.act (.put (cursorTo s.lastX (s.lastY + 1))), ?_,
      ⟨ho, by rw [h1, h2]; rfl, he⟩, hk, hb, by rw [h1, h2]; simp only [St.act, cursorTo_act]; rfl⟩
    have : batbox V s (p :: rest) =
        batbox V ({ s with lastY := toShort (s.lastY + 1) }.act (.put (cursorTo s.lastX (toShort (s.lastY + 1))))) rest := by
      rw [batbox.eq_def]
      rcases hp with rfl | rfl <;> rfl
    rw [List.cons_append, List.nil_append, this, toShort_cell c]
  | @pause p t n hp hn =>
    refine ⟨s.act (.wait n), ?_, ⟨ho, hl, he⟩, hk, hb, rfl⟩
    have : batbox V s (p :: t :: rest) = batbox V (s.act (.wait (getNumber V s.env t))) rest := by
      rw [batbox]
      rcases hp with rfl | rfl <;> rfl
    rw [List.cons_append, List.cons_append, List.nil_append, this, ← he, getNumber_box hn]
  | @color p t b f hp hn =>
    refine ⟨s.act (BoxEffect.colours b f).act, ?_, ⟨ho, hl, he⟩, hk, hb, rfl⟩
    have : batbox V s (p :: t :: rest) = batbox V (s.act (.put (colorText (portable (getNumber V s.env t))))) rest := by
      rw [batbox]
      rcases hp with rfl | rfl <;> rfl
    rw [List.cons_append, List.cons_append, List.nil_append, this, ← he, getNumber_box hn, color_act]
  | @noKey c d hc hd =>
    subst hd
    refine ⟨{ s with hits := bs }, ?_, ⟨ho, hl, he⟩, hk, rfl, by simp⟩
    have : batbox V s (['/', c, '_'] :: rest) = if !(s.hits.headD false) then batbox V { s with hits := s.hits.tail } rest
        else .ok ((readKey s.keys).1, { s with hits := s.hits.tail, keys := (readKey s.keys).2 }) := by
      rw [batbox.eq_def]
      simp only [List.mem_cons, List.not_mem_nil, or_false] at hc
      cases rest with
      | nil => rcases hc with rfl | rfl | rfl | rfl <;> rfl
      | cons x r => rcases hc with rfl | rfl | rfl | rfl <;> rfl
    rw [List.cons_append, List.nil_append, this, hb]
    rfl
  | @mouseVars p m X Y T typed b t x y hp hX hY hT ht hm hx hy =>
    have := batbox_mouse_names V s _ p m X Y T rest x y t hp hX hY hT (mousePos_report s m typed ks b x y t hk ht hm hx hy)
    refine ⟨_, this, ⟨ho, hl, ?_⟩, rfl, hb, rfl⟩
    simp only [mouseDone, he, intText_toString]
    rfl
  | @mousePrint p m typed b t x y hp ht hm hx hy =>
    have := batbox_mouse_print V s _ p m rest x y t hp hr (mousePos_report s m typed ks b x y t hk ht hm hx hy)
    refine ⟨_, this, ⟨ho, hl, he⟩, rfl, hb, ?_⟩
    simp only [mouseDone, St.act, intText_toString, show toString ((x : Nat) : Int) = toString x from rfl,
      show toString ((y : Nat) : Int) = toString y from rfl]
    simp [BoxEffect.act]

end PBat.Box
