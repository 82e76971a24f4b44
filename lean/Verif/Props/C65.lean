import Verif.Lemmas.Prompt
import Verif.Lemmas.Locals
/-
C65: COLOR sets the colours of the table.
-/
namespace PBat
open Spec

/-! ### Helper lemmas -/

theorem digit_back {c : Char} {n : Nat} (h : colorDigit c = some n) : ∃ d : Fin 16, colourDigit d c ∧ d.val = n := by
  unfold colorDigit at h
  have key : ∀ d : Fin 16, ∀ l : Char, l.toNat = (("0123456789abcdef".toList[d.val]?).getD 'z').toNat →
      "0123456789abcdef".toList[d.val]? = some l := by
    intro d l hl
    have h0 : ∀ d : Fin 16, "0123456789abcdef".toList[d.val]? = some (("0123456789abcdef".toList[d.val]?).getD 'z') := by decide
    rw [toNat_inj hl]
    exact h0 d
  simp only at h
  have e0 : ('0' : Char).toNat = 48 := rfl
  have e1 : ('9' : Char).toNat = 57 := rfl
  have e2 : ('a' : Char).toNat = 97 := rfl
  have e3 : ('f' : Char).toNat = 102 := rfl
  rw [e0, e1, e2, e3] at h
  split at h
  · rename_i hr
    simp only [Option.some.injEq] at h
    refine ⟨⟨n, by omega⟩, key _ _ ?_, rfl⟩
    have hn : n < 10 := by omega
    have : c.toLower.toNat = n + 48 := by omega
    rw [this]
    have : ∀ n : Fin 10, n.val + 48 = (("0123456789abcdef".toList[n.val]?).getD 'z').toNat := by decide
    exact this ⟨n, hn⟩
  · split at h
    · rename_i hr
      simp only [Option.some.injEq] at h
      refine ⟨⟨n, by omega⟩, key _ _ ?_, rfl⟩
      have : c.toLower.toNat = (n - 10) + 97 := by omega
      rw [this]
      have hn : n - 10 < 6 := by omega
      have hn' : n = (n - 10) + 10 := by omega
      have : ∀ n : Fin 6, n.val + 97 = (("0123456789abcdef".toList[n.val + 10]?).getD 'z').toNat := by decide
      have := this ⟨n - 10, hn⟩
      simp only at this
      rwa [← hn'] at this
    · simp at h

theorem not_help {cur cur' : Colour} {b f : Char} {x y : Colour} (hb : Names cur b x) (_ : Names cur' f y) :
    [b, f] ≠ "/?".toList := by
  intro h
  rw [show "/?".toList = ['/', '?'] from rfl, List.cons.injEq] at h
  obtain ⟨rfl, -⟩ := h
  cases hb with
  | digit hd => have := digit_eq hd; simp [show colorDigit '/' = none from by decide] at this

theorem halves (b f : Colour) :
    (0xF0 &&& (encFore f ||| encBack b)) >>> 4 = 0xF &&& (encFore f ||| encBack b) ↔ b.getD 0 = f.getD 0 := by
  revert b f
  decide +kernel

theorem color_two {col : Nat} {b f b' f' : Colour} {cb cf : Char} (hc : Holds col b f) (hb : Names b cb b') (hf : Names f cf f') :
    cmdColor col (some [cb, cf]) = if b'.getD 0 = f'.getD 0 then .refused
      else .set (encFore f' ||| encBack b') (setTextColor (encFore f' ||| encBack b')) := by
  simp only [cmdColor]
  rw [show [cb, cf].take 3 = [cb, cf] from rfl, if_neg (not_help hb hf), code_names hc hb hf]
  simp only
  by_cases h : b'.getD 0 = f'.getD 0
  · rw [if_pos ((halves b' f').2 h), if_pos h]
  · rw [if_neg (fun h' => h ((halves b' f').1 h')), if_neg h]

theorem names_of_back {col : Nat} {b f : Colour} {c : Char} {v : Nat} (h : backOf col c = some v) : ∃ b', Names b c b' := by
  unfold backOf at h
  split at h
  · rename_i d hd
    obtain ⟨d', h1, -⟩ := digit_back hd
    exact ⟨_, .digit h1⟩
  · split at h
    · rename_i hc; subst hc; exact ⟨_, .dot⟩
    · simp at h

theorem names_of_fore {col : Nat} {f : Colour} {c : Char} {v : Nat} (h : foreOf col c = some v) : ∃ f', Names f c f' := by
  unfold foreOf at h
  split at h
  · rename_i d hd
    obtain ⟨d', h1, -⟩ := digit_back hd
    exact ⟨_, .digit h1⟩
  · split at h
    · rename_i hc; subst hc; exact ⟨_, .dot⟩
    · simp at h

/-- The colours in force after a COLOR command, `scr` being the screen. -/
def colorStep (col : Nat) (scr : Screen) (arg : Option (List Char)) : Nat × Screen :=
  match cmdColor col arg with
  | .set col' codes => (col', codes.foldl Screen.sgr scr)
  | _ => (col, scr)

theorem default_code : colorDefault = encFore none ||| encBack none := by decide

/-! ### The property -/

/-- `COLOR BF` gives the background and the text the colours `B` and `F` name in the table, `.` being the colour in force, and these
become the colours in force; the screen shows them, whatever it showed.  Partial: a colour must differ from the other, the default of the
terminal counting as black (see `C65_default_refused`). -/
theorem C65_color_partial (col : Nat) (b f b' f' : Colour) (cb cf : Char) (hc : Holds col b f) (hb : Names b cb b') (hf : Names f cf f')
    (hne : b'.getD 0 ≠ f'.getD 0) :
    ∃ col' codes, cmdColor col (some [cb, cf]) = .set col' codes ∧ Holds col' b' f' ∧
      ∀ scr : Screen, codes.foldl Screen.sgr scr = showing b' f' := by
  refine ⟨_, _, by rw [color_two hc hb hf, if_neg hne], holds_code b' f', fun scr => setText_shows scr b' f'⟩

/-- Two equal colours of the table are refused. -/
theorem C65_same (col : Nat) (b f : Colour) (d : Fin 16) (cb cf : Char) (hc : Holds col b f) (hb : Names b cb (some d))
    (hf : Names f cf (some d)) : cmdColor col (some [cb, cf]) = .refused := by
  rw [color_two hc hb hf, if_pos rfl]

/-- Anything else than one or two characters that name colours is refused. -/
theorem C65_invalid (col : Nat) (b f : Colour) (arg : List Char) (hh : arg.take 3 ≠ "/?".toList)
    (h : ∀ cb cf b' f', Names b cb b' → Names f cf f' → arg ≠ [cb, cf] ∧ arg ≠ [cf]) :
    cmdColor col (some arg) = .refused := by
  simp only [cmdColor]
  rw [if_neg hh]
  match arg with
  | [] => rfl
  | [c] =>
    have : foreOf col c = none := by
      cases hv : foreOf col c with
      | none => rfl
      | some v =>
        obtain ⟨f', hf'⟩ := names_of_fore (f := f) hv
        exact absurd rfl (h '.' c b f' .dot hf').2
    rw [show [c].take 3 = [c] from rfl]
    simp only [getColorCode, this, Option.map_none]
  | [x, y] =>
    have : getColorCode col [x, y] = none := by
      simp only [getColorCode]
      cases hv : backOf col x with
      | none => rfl
      | some v =>
        cases hw : foreOf col y with
        | none => rfl
        | some w =>
          obtain ⟨b', hb'⟩ := names_of_back (b := b) (f := f) hv
          obtain ⟨f', hf'⟩ := names_of_fore (f := f) hw
          exact absurd rfl (h x y b' f' hb' hf').1
    rw [show [x, y].take 3 = [x, y] from rfl]
    simp only [this]
  | x :: y :: z :: r => rfl

/-- COLOR without parameter restores the colours of the terminal. -/
theorem C65_reset (col : Nat) : ∃ col' codes, cmdColor col none = .set col' codes ∧ Holds col' none none ∧
    ∀ scr : Screen, codes.foldl Screen.sgr scr = showing none none :=
  ⟨_, _, rfl, by rw [default_code]; exact holds_code none none, fun scr => by rw [default_code]; exact setText_shows scr none none⟩

/-- After any sequence of COLOR commands the screen shows the colours the interpreter takes to be in force, so that `.` names what is
seen.  Partial: no command had a code of one character (see `C65_one_digit`). -/
theorem C65_history_partial (args : List (Option (List Char))) (h1 : ∀ c, some [c] ∉ args) (col : Nat) (scr : Screen) (b f : Colour)
    (hc : Holds col b f) (hs : scr = showing b f) :
    ∃ b' f', Holds (args.foldl (fun p a => colorStep p.1 p.2 a) (col, scr)).1 b' f' ∧
      (args.foldl (fun p a => colorStep p.1 p.2 a) (col, scr)).2 = showing b' f' := by
  induction args generalizing col scr b f with
  | nil => exact ⟨b, f, hc, hs⟩
  | cons a args ih =>
    simp only [List.foldl_cons]
    have step : ∃ b' f', Holds (colorStep col scr a).1 b' f' ∧ (colorStep col scr a).2 = showing b' f' := by
      unfold colorStep
      split
      · rename_i col' codes heq
        match a with
        | none =>
          obtain ⟨c, ds, h, hh, hq⟩ := C65_reset col
          rw [h] at heq
          simp only [ColorOut.set.injEq] at heq
          exact ⟨none, none, heq.1 ▸ hh, by rw [← heq.2]; exact hq scr⟩
        | some arg =>
          by_cases hx : ∃ cb cf b' f', Names b cb b' ∧ Names f cf f' ∧ arg = [cb, cf]
          · obtain ⟨cb, cf, b', f', hb, hf, rfl⟩ := hx
            by_cases hne : b'.getD 0 = f'.getD 0
            · rw [color_two hc hb hf, if_pos hne] at heq; simp at heq
            · rw [color_two hc hb hf, if_neg hne] at heq
              simp only [ColorOut.set.injEq] at heq
              exact ⟨b', f', heq.1 ▸ holds_code b' f', by rw [← heq.2]; exact setText_shows scr b' f'⟩
          · by_cases hh : arg.take 3 = "/?".toList
            · simp [cmdColor, hh] at heq
            · rw [C65_invalid col b f arg hh ?_] at heq
              · simp at heq
              · intro cb cf b' f' hb hf
                refine ⟨fun h => hx ⟨cb, cf, b', f', hb, hf, h⟩, ?_⟩
                rintro rfl
                exact h1 cf List.mem_cons_self
      · exact ⟨b, f, hc, hs⟩
    obtain ⟨b', f', hh, hq⟩ := step
    exact ih (fun c hm => h1 c (List.mem_cons_of_mem _ hm)) _ _ b' f' hh hq

/-! ### Violations -/

/-- Colours the manual allows are refused when one of them, or both, is the default of the terminal: `COLOR ..` at the start, `COLOR .0`,
`COLOR 0.`. -/
theorem C65_default_refused (col : Nat) (b f b' f' : Colour) (cb cf : Char) (hc : Holds col b f) (hb : Names b cb b')
    (hf : Names f cf f') (h : (b' = none ∧ (f' = none ∨ f' = some 0)) ∨ (b' = some 0 ∧ f' = none)) :
    cmdColor col (some [cb, cf]) = .refused := by
  rw [color_two hc hb hf, if_pos]
  rcases h with ⟨rfl, rfl | rfl⟩ | ⟨rfl, rfl⟩ <;> rfl

/-- A code of one character, accepted by the program, changes the background whatever it is, unless it is black. -/
theorem C65_one_digit (col : Nat) (b f f' : Colour) (cf : Char) (hc : Holds col b f) (hf : Names f cf f') (hb : b ≠ some 0) (scr : Screen)
    (col' : Nat) (codes : List Nat) (h : cmdColor col (some [cf]) = .set col' codes) :
    (codes.foldl Screen.sgr scr).back ≠ (showing b f).back := by
  have h1 : getColorCode col [cf] = some (encFore f' ||| (encBack b <<< 4)) := by
    simp only [getColorCode, fore_names hc hf, hc.1]; rfl
  simp only [cmdColor] at h
  rw [show [cf].take 3 = [cf] from rfl, if_neg (by simp), h1] at h
  simp only at h
  split at h
  · simp at h
  · simp only [ColorOut.set.injEq] at h
    rw [← h.2]
    have key : ∀ b f : Colour, b ≠ some 0 →
        ((setTextColor (encFore f ||| (encBack b <<< 4))).foldl Screen.sgr ⟨0, 0⟩).back ≠ ansi 40 100 b ∧
        ∀ n ∈ setTextColor (encFore f ||| (encBack b <<< 4)), n ≠ ansi 40 100 b := by decide +kernel
    have h2 : ∀ (l : List Nat) (s t : Screen), (∃ n ∈ l, (40 ≤ n ∧ n ≤ 47) ∨ n = 49 ∨ (100 ≤ n ∧ n ≤ 107)) →
        (l.foldl Screen.sgr s).back = (l.foldl Screen.sgr t).back := by
      intro l
      induction l with
      | nil => rintro s t ⟨n, hn, -⟩; simp at hn
      | cons m l ih =>
        rintro s t ⟨n, hn, hr⟩
        simp only [List.foldl_cons]
        by_cases hl : ∃ n ∈ l, (40 ≤ n ∧ n ≤ 47) ∨ n = 49 ∨ (100 ≤ n ∧ n ≤ 107)
        · exact ih _ _ hl
        · rcases List.mem_cons.1 hn with rfl | hn
          · have keep : ∀ (l : List Nat) (s : Screen), (¬ ∃ n ∈ l, (40 ≤ n ∧ n ≤ 47) ∨ n = 49 ∨ (100 ≤ n ∧ n ≤ 107)) →
                (l.foldl Screen.sgr s).back = s.back := by
              intro l
              induction l with
              | nil => intros; rfl
              | cons k l ih2 =>
                intro s hk
                simp only [List.foldl_cons]
                rw [ih2 _ (fun ⟨n, hn, hr⟩ => hk ⟨n, List.mem_cons_of_mem _ hn, hr⟩)]
                unfold Screen.sgr
                rw [if_neg (fun hr => hk ⟨k, List.mem_cons_self, hr⟩)]
                split <;> rfl
            rw [keep l _ hl, keep l _ hl]
            unfold Screen.sgr
            rw [if_pos hr, if_pos hr]
          · exact absurd ⟨n, hn, hr⟩ hl
    have h3 : ∀ b f : Colour, ∃ n ∈ setTextColor (encFore f ||| (encBack b <<< 4)),
        (40 ≤ n ∧ n ≤ 47) ∨ n = 49 ∨ (100 ≤ n ∧ n ≤ 107) := by decide +kernel
    rw [h2 _ scr ⟨0, 0⟩ (h3 b f')]
    exact (key b f' hb).1

/-- On a green background, a code of one character does not even set the colour of the text. -/
theorem C65_one_digit_text : ∃ col' codes, cmdColor (encFore none ||| encBack (some 2)) (some ['4']) = .set col' codes ∧
    ∀ scr : Screen, (codes.foldl Screen.sgr scr).fore = 39 :=
  ⟨_, _, rfl, fun _ => rfl⟩

/-! ### Examples -/

example : Names none '4' (some 4) ∧ Names none '.' none := ⟨.digit rfl, .dot⟩
example : Names (some 3) 'C' (some 12) := .digit rfl
example : Holds colorDefault none none := ⟨rfl, rfl⟩
example : showing (some 4) (some 12) = ⟨41, 91⟩ := rfl
example : showing (some 1) none = ⟨44, 39⟩ := rfl
example : cmdColor colorDefault (some "..".toList) = .refused := by decide

end PBat
