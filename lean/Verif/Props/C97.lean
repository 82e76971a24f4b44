import Verif.Lemmas.BatboxStep
/-
C97: BATBOX runs its subcommands one after another and reports keys and clicks.
-/
namespace PBat.Box
open Spec

/-! ### Helper lemmas -/

theorem batbox_key {E} (V : Env E) (s : St E) (c : Char) (rest : List (List Char)) (hc : c ∈ ['k', 'K', 'l', 'L']) :
    batbox V s (['/', c] :: rest) = .ok ((readKey s.keys).1, { s with keys := (readKey s.keys).2 }) := by
  rw [batbox.eq_def]
  simp only [List.mem_cons, List.not_mem_nil, or_false] at hc
  cases rest with
  | nil => rcases hc with rfl | rfl | rfl | rfl <;> rfl
  | cons x r => rcases hc with rfl | rfl | rfl | rfl <;> rfl

theorem batbox_hit {E} (V : Env E) (s : St E) (c : Char) (rest : List (List Char)) (hc : c ∈ ['k', 'K', 'l', 'L']) {hs : List Bool}
    (hh : s.hits = true :: hs) :
    batbox V s (['/', c, '_'] :: rest) = .ok ((readKey s.keys).1, { s with hits := hs, keys := (readKey s.keys).2 }) := by
  obtain ⟨ox, oy, lx, ly, env, keys, hits, acts⟩ := s
  simp only at hh
  subst hh
  rw [batbox.eq_def]
  simp only [List.mem_cons, List.not_mem_nil, or_false] at hc
  cases rest with
  | nil => rcases hc with rfl | rfl | rfl | rfl <;> rfl
  | cons x r => rcases hc with rfl | rfl | rfl | rfl <;> rfl

theorem readKey_plain {k : Nat} (r : List Nat) (h1 : k ≠ 27) (h2 : k ≠ 224) : readKey (k :: r) = ((k : Int), r) := by
  unfold readKey
  rw [getch_plain r h1]
  simp only
  rw [if_neg (by omega)]

theorem steps_first {E} {V : Env E} {v v' : BoxState E} {w k h e} (hs : BoxSteps V v w k h e v') (rest : List (List Char))
    (hr : ∀ x ∈ rest.head?, x.head? = some '/') : ∀ x ∈ (w ++ rest).head?, x.head? = some '/' := by
  cases hs with
  | nil => exact hr
  | cons h1 _ =>
    obtain ⟨p, r, rfl⟩ := step_first h1
    simp

/-! ### The property -/

/-- Subcommands written one after another have their documented effects in that order, whatever they are and however many: characters and
texts are written, the cursor goes to the cell given (counted from the origin set), or a row under the last one, delays and colours are
those given, clicks and moves are stored in the variables named or printed as `X:Y:type`, `/k_` is passed over when no key waits. The
command then ends with status 0, or at a `/k` with the code of the key typed. Partial: keys are those sending one byte and no name is
given to `/k` (see `C97_key_name`), `/h` is left out (see `C97_cursor`), double clicks do not exist (see `C97_no_double`). -/
theorem C97_batbox_partial {E} (V : Env E) (s : St E) (v v' : BoxState E) (w : List (List Char)) (k : List Nat) (h : List Bool)
    (e : List BoxEffect) (hv : BoxView s v) (hs : BoxSteps V v w k h e v') (last : List (List Char)) (ks : List Nat) (bs : List Bool)
    (status : Int) (hl : BoxEnd last ks bs status) (hk : s.keys = k ++ ks) (hb : s.hits = h ++ bs) :
    ∃ s', batbox V s (w ++ last) = .ok (status, s') ∧ BoxView s' v' ∧ s'.acts = s.acts ++ e.map BoxEffect.act ∧
      s'.keys = (if last = [] then ks else ks.tail) := by
  have hlast : ∀ x ∈ last.head?, x.head? = some '/' := by cases hl <;> simp
  induction hs generalizing s with
  | nil =>
    rw [List.nil_append] at hk hb ⊢
    cases hl with
    | done => exact ⟨s, by rw [batbox], hv, by simp, by simp [hk]⟩
    | key hc h1 h2 _ =>
      refine ⟨_, by rw [batbox_key V s _ _ hc, hk, readKey_plain _ h1 h2], ?_, by simp, by simp⟩
      obtain ⟨a, b, c⟩ := hv
      exact ⟨a, b, c⟩
    | hit hc h1 h2 _ =>
      refine ⟨_, by rw [batbox_hit V s _ _ hc hb, hk, readKey_plain _ h1 h2], ?_, by simp, by simp⟩
      obtain ⟨a, b, c⟩ := hv
      exact ⟨a, b, c⟩
  | cons h1 h2 ih =>
    rw [List.append_assoc] at hk hb ⊢
    obtain ⟨s1, e1, hv1, hk1, hb1, ha1⟩ := batbox_step V s _ _ _ _ _ _ hv h1 _ (steps_first h2 last hlast) _ _ hk hb
    obtain ⟨s2, e2, hv2, ha2, hk2⟩ := ih s1 hv1 hk1 hb1
    exact ⟨s2, by rw [e1, e2], hv2, by rw [ha2, ha1, List.map_append, List.append_assoc], hk2⟩

/-- Words that are not subcommands are passed over. -/
theorem C97_other {E} (V : Env E) (s : St E) (p : List Char) (r : List (List Char)) (h : p.head? ≠ some '/') :
    batbox V s (p :: r) = batbox V s r := by
  have : ∀ c, isSwitch c p = false := by
    intro c
    unfold isSwitch
    split
    · simp at h
    · rfl
  rw [batbox.eq_def]
  simp only [this, Bool.or_self, Bool.false_eq_true, if_false]

/-! ### Violations -/

/-- A name given to `/k` or `/l` is of no use: the variable is not set, the code is returned as the status, and what follows is not done,
for all names, keys and following words. -/
theorem C97_key_name {E} (V : Env E) (s : St E) (c : Char) (name : List Char) (rest : List (List Char)) (k : Nat) (ks : List Nat)
    (hc : c ∈ ['k', 'K', 'l', 'L']) (hk : s.keys = k :: ks) (h1 : k ≠ 27) (h2 : k ≠ 224) :
    batbox V s (['/', c] :: name :: rest) = .ok ((k : Int), { s with keys := ks }) := by
  rw [batbox_key V s c _ hc, hk, readKey_plain _ h1 h2]

/-- `/h` does not write the sequences that show and hide the cursor, `ESC[?25h` and `ESC[?25l`, but others without the question mark. -/
theorem C97_cursor {E} (V : Env E) (s : St E) (p t : List Char) (n : Int) (rest : List (List Char)) (hp : BoxSwitch 'h' p)
    (hn : BoxNum V s.env t n) :
    batbox V s (p :: t :: rest) =
      batbox V (s.act (.put (Char.ofNat 27 :: (if n = 0 then "[25l".toList else "[25h".toList)))) rest := by
  have : batbox V s (p :: t :: rest) = batbox V (s.act (.put (cursorState (getNumber V s.env t)))) rest := by
    rw [batbox]
    rcases hp with rfl | rfl <;> rfl
  rw [this, getNumber_box hn]
  unfold cursorState
  by_cases h : n = 0
  · rw [if_neg (by simpa using h), if_pos h]
    rfl
  · rw [if_pos h, if_neg h]
    rfl

/-- Keys of the keyboard and the letters whose codes they share: arrows up, down, right, left, end, home, insert, delete, page up, page
down. -/
def confused : List (List Nat × Nat) :=
  [([65], 72), ([66], 80), ([67], 77), ([68], 75), ([70], 79), ([72], 71), ([50, 126], 82), ([51, 126], 83), ([53, 126], 73),
   ([54, 126], 81)]

/-- Ten special keys cannot be told from ten capital letters: the status is the same. -/
theorem C97_confused {E} (V : Env E) (s : St E) (c : Char) (rest : List (List Char)) (r : List Nat) (seq : List Nat) (l : Nat)
    (hc : c ∈ ['k', 'K', 'l', 'L']) (hm : (seq, l) ∈ confused) :
    batbox V { s with keys := 27 :: 91 :: (seq ++ r) } (['/', c] :: rest) = batbox V { s with keys := l :: r } (['/', c] :: rest) := by
  rw [batbox_key V _ c _ hc, batbox_key V _ c _ hc]
  simp only [confused, List.mem_cons, List.not_mem_nil, or_false, Prod.mk.injEq] at hm
  have h91 : ∀ r, getch (91 :: r) = (((91 : Nat) : Int), r) := fun r => getch_plain (k := 91) r (by decide)
  have h126 : ∀ r, getch (126 :: r) = (((126 : Nat) : Int), r) := fun r => getch_plain (k := 126) r (by decide)
  rcases hm with ⟨rfl, rfl⟩ | ⟨rfl, rfl⟩ | ⟨rfl, rfl⟩ | ⟨rfl, rfl⟩ | ⟨rfl, rfl⟩ | ⟨rfl, rfl⟩ | ⟨rfl, rfl⟩ | ⟨rfl, rfl⟩ | ⟨rfl, rfl⟩ |
    ⟨rfl, rfl⟩ <;>
  · simp only [readKey, List.cons_append, List.nil_append, getch_esc, h91, h126, getch_plain _ (show (65 : Nat) ≠ 27 by decide),
      getch_plain _ (show (66 : Nat) ≠ 27 by decide), getch_plain _ (show (67 : Nat) ≠ 27 by decide),
      getch_plain _ (show (68 : Nat) ≠ 27 by decide), getch_plain _ (show (70 : Nat) ≠ 27 by decide),
      getch_plain _ (show (72 : Nat) ≠ 27 by decide), getch_plain _ (show (50 : Nat) ≠ 27 by decide),
      getch_plain _ (show (51 : Nat) ≠ 27 by decide), getch_plain _ (show (53 : Nat) ≠ 27 by decide),
      getch_plain _ (show (54 : Nat) ≠ 27 by decide), getch_plain _ (show (80 : Nat) ≠ 27 by decide),
      getch_plain _ (show (77 : Nat) ≠ 27 by decide), getch_plain _ (show (75 : Nat) ≠ 27 by decide),
      getch_plain _ (show (79 : Nat) ≠ 27 by decide), getch_plain _ (show (71 : Nat) ≠ 27 by decide),
      getch_plain _ (show (82 : Nat) ≠ 27 by decide), getch_plain _ (show (83 : Nat) ≠ 27 by decide),
      getch_plain _ (show (73 : Nat) ≠ 27 by decide), getch_plain _ (show (81 : Nat) ≠ 27 by decide)]
    rfl

/-- The key ESC is only reported once another key is typed, and that key is lost. -/
theorem C97_escape {E} (V : Env E) (s : St E) (c : Char) (rest : List (List Char)) (k : Nat) (r : List Nat)
    (hc : c ∈ ['k', 'K', 'l', 'L']) (hk : s.keys = 27 :: k :: r) (h1 : k ≠ 27) (h2 : k ≠ 91) :
    batbox V s (['/', c] :: rest) = .ok (27, { s with keys := r }) := by
  rw [batbox_key V s c _ hc, hk]
  unfold readKey
  have hne : ¬ ((k : Int), r).1 = 91 := fun h => h2 (by simp only at h; omega)
  rw [getch_esc, getch_plain _ h1, if_neg hne]
  rfl

/-- A function key such as F5 (`ESC[15~`) is reported as -1, and then as the keys 5 and tilde. -/
theorem C97_function_key {E} (V : Env E) (s : St E) (c : Char) (rest : List (List Char)) (r : List Nat)
    (hc : c ∈ ['k', 'K', 'l', 'L']) (hk : s.keys = 27 :: 91 :: 49 :: 53 :: 126 :: r) :
    batbox V s (['/', c] :: rest) = .ok (-1, { s with keys := 53 :: 126 :: r }) := by
  rw [batbox_key V s c _ hc, hk]
  unfold readKey
  rw [getch_esc, getch_plain _ (by decide)]
  simp only [getch_plain _ (show (49 : Nat) ≠ 27 by decide)]
  rfl

/-- The first byte of a character such as those of Thai is taken for an extended key: the code is the sum of two bytes. -/
theorem C97_lead_byte {E} (V : Env E) (s : St E) (c : Char) (rest : List (List Char)) (k : Nat) (r : List Nat)
    (hc : c ∈ ['k', 'K', 'l', 'L']) (hk : s.keys = 224 :: k :: r) (h : k ≠ 27) :
    batbox V s (['/', c] :: rest) = .ok (224 + k, { s with keys := r }) := by
  rw [batbox_key V s c _ hc, hk]
  unfold readKey
  rw [getch_plain _ (by decide)]
  simp only [getch_plain _ h]
  rfl

theorem toMouse_single (b : Int) : (toMouse 8 b).1 ≠ 3 ∧ (toMouse 8 b).1 ≠ 4 := by
  unfold toMouse
  simp only
  split
  · split <;> decide
  · split <;> split <;> (try split) <;> (try split) <;> (try split) <;> simp_all

/-- The types 3 and 4 of the manual are never reported: whatever the terminal sends, whatever happened before. -/
theorem C97_no_double {E} (s s' : St E) (m : Bool) (x y t : Int) (h : mousePos s m = .ok ((x, y, t), s')) : t ≠ 3 ∧ t ≠ 4 := by
  unfold mousePos at h
  simp only [St.act] at h
  cases hw : waitMouse s.keys with
  | ub => rw [hw] at h; cases h
  | hang => rw [hw] at h; cases h
  | ok ks =>
    rw [hw] at h
    have h : Res.ok _ = _ := h
    simp only [Res.ok.injEq, Prod.mk.injEq] at h
    rw [← h.1.2.2]
    exact toMouse_single _

/-- The release of a button, which terminals report as well, is printed as a type 8 the manual does not know. -/
theorem C97_release {E} (V : Env E) (s : St E) (p : List Char) (x y : Nat) (ks : List Nat) (hp : BoxSwitch 'm' p) (hx : x < 223)
    (hy : y < 223) (hk : s.keys = mouseReport 3 x y ++ ks) :
    ∃ s', batbox V s [p] = .ok (0, s') ∧ s'.acts = s.acts ++ [(BoxEffect.tracking false true).act, (BoxEffect.tracking false false).act,
      .put (toString x ++ ":" ++ toString y ++ ":8\n").toList] := by
  have hm : mousePos s false = .ok (((x : Int), (y : Int), (8 : Int)), { s with keys := ks, acts := s.acts ++
      [(BoxEffect.tracking false true).act, (BoxEffect.tracking false false).act] }) := by
    unfold mousePos
    simp only [St.act]
    rw [hk]
    simp only [mouseReport, List.cons_append, List.nil_append]
    rw [show (27 :: 91 :: 77 :: (32 + 3) :: (33 + x) :: (33 + y) :: ks : List Nat) = [] ++ 27 :: 91 :: 77 :: (35 :: (33 + x) ::
      (33 + y) :: ks) from rfl, waitMouse_typed _ _ (by simp)]
    show Res.ok _ = _
    have e2 : getch ((33 + x) :: (33 + y) :: ks) = (((33 + x : Nat) : Int), (33 + y) :: ks) := getch_plain _ (by omega)
    have e3 : getch ((33 + y) :: ks) = (((33 + y : Nat) : Int), ks) := getch_plain _ (by omega)
    rw [getch_plain _ (by decide)]; simp only; rw [e2]; simp only; rw [e3]; simp only
    rw [show toShort (((33 + x : Nat) : Int) - 33) = x by unfold toShort; omega,
      show toShort (((33 + y : Nat) : Int) - 33) = y by unfold toShort; omega, show (toMouse 8 ((35 : Nat) : Int)).1 = 8 by decide]
    simp [BoxEffect.act, intText_toString]
    decide +kernel
  have := batbox_mouse_print V s _ p false [] x y 8 (.click hp) (by simp) hm
  refine ⟨_, by rw [this, batbox], ?_⟩
  simp only [mouseDone, St.act, intText_toString, show toString ((x : Nat) : Int) = toString x from rfl,
    show toString ((y : Nat) : Int) = toString y from rfl]
  have e8 : (toString (8 : Int)).toList = ['8'] := by decide +kernel
  simp only [e8]
  simp

/-- In capitals `/Y` and `/M_` only wait for clicks, as `/m` does. -/
theorem C97_capitals {E} (V : Env E) (s : St E) (r : List (List Char)) :
    batbox V s ("/Y".toList :: r) = batbox V s ("/m".toList :: r) ∧ batbox V s ("/M_".toList :: r) = batbox V s ("/m".toList :: r) := by
  constructor
  · rw [batbox.eq_def, batbox.eq_def]; rfl
  · rw [batbox.eq_def, batbox.eq_def]; rfl

/-- When the terminal is closed while the command waits for the mouse, it never ends. -/
theorem C97_closed {E} (V : Env E) (s : St E) (p : List Char) (m : Bool) (r : List (List Char)) (hp : MouseSwitch p m)
    (hk : ∀ k ∈ s.keys, k ≠ 27) : batbox V s (p :: r) = .hang := by
  have : mousePos s m = .hang := by
    unfold mousePos
    simp only [St.act]
    rw [waitMouse_end _ hk]
    rfl
  rw [batbox_mouse V s p m r hp, this]

/-! ### Examples -/

/-- An environment for examples. -/
def exEnv : Env (List (List Char × List Char)) := ⟨fun e n => e.lookup n, fun e n v => (n, v) :: e⟩

/-- A state for examples. -/
def exSt (keys : List Nat) : St (List (List Char × List Char)) := ⟨0, 0, 0, 0, [], keys, [], []⟩

/-- `/g 10 0x0A /d hi /n /c 0x1F /m X Y T /k` with a click and a key. -/
example : batbox exEnv (exSt [27, 91, 77, 32, 43, 34, 97]) (["/g", "10", "0x0A", "/d", "hi", "/n", "/c", "0x1F", "/m", "X", "Y", "T", "/k"].map
    String.toList) = .ok (97, ⟨0, 0, 10, 11, [(['T'], ['1']), (['Y'], ['1']), (['X'], ['1', '0'])], [], [],
      [.put "\x1b[11;11H".toList, .put "hi".toList, .put "\x1b[12;11H".toList, .put "\x1b[44m\x1b[97m".toList, .tty "\x1b[?1000h".toList,
       .tty "\x1b[?1000l".toList]⟩) := by decide +kernel

/-- A sequence of subcommands as the specification has it. -/
example : ∃ e v', BoxSteps exEnv ⟨(0, 0), (0, 0), []⟩ [['/', 'G'], ['1', '2'], ['5'], ['/', 'n'], ['/', 'm'], ['X'], ['Y'], ['T']]
    ([97] ++ mouseReport 2 7 9) [] e v' ∧ v'.env = [(['T'], ['2']), (['Y'], ['9']), (['X'], ['7'])] := by
  refine ⟨_, _, .cons (w := [_, _, _]) (k := []) (h := []) (.go (x := 12) (y := 5) (.inr (by decide)) (.lit ?_ (by decide) (by decide))
    (.lit ?_ (by decide) (by decide)) ⟨by decide, by decide⟩ ⟨by decide, by decide⟩) (.cons (w := [_]) (k := []) (h := [])
    (.next (.inl rfl) ⟨by decide, by decide⟩)
    (.cons (w := [_, _, _, _]) (ks := []) (h := []) (.mouseVars (typed := [97]) (b := 2) (x := 7) (y := 9) (.click (.inl rfl)) ⟨by decide, by decide⟩
      ⟨by decide, by decide⟩ ⟨by decide, by decide⟩ (by decide) (.right (m := 0) (by decide)) (by decide) (by decide)) .nil)), ?_⟩
  · exact .plain (.dec (by decide) (by decide))
  · exact .plain (.dec (by decide) (by decide))
  · decide +kernel

end PBat.Box
