import Verif.Lemmas.Prompt
import Verif.Lemmas.Args
import Verif.Lemmas.LibC
/-
C64: PROMPT, %PROMPT% and PECHO show the text of the manual, codes expanded.
-/
namespace PBat
open Spec

/-! ### Helper lemmas -/

theorem prompts_shown {e : PromptCtx} {b f : Colour} {s : List Char} {o : List Shown} (h : Prompts e b f s o) (hd : e.dir ≠ [])
    (hc : Holds e.col b f) (scr : Screen) : receives scr (promptOut e s) = look scr o := by
  induction h generalizing scr with
  | nil => rw [promptOut]; rfl
  | plain hn _ ih => rw [promptOut_plain hn]; simp only [receives, look, ih]
  | code ht _ ih =>
    obtain ⟨h1, h2⟩ := table_code hd ht
    rw [promptOut_code h2, h1, receives_append, look_append, receives_chars, look_chars]
    simp only [ih]
  | colour hx hb hf _ ih =>
    rw [promptOut_color hx, promptColor_two _ _ _ _ (names_ne_semi hf), code_names hc hb hf]
    simp only [Option.map_some, Option.toList_some, List.cons_append, List.nil_append, receives, look, setText_shows, ih]

theorem promptOut_dollars (e : PromptCtx) (t : List Char) : promptOut e (dollars t) = t.map Piece.char := by
  induction t with
  | nil => unfold dollars; rw [promptOut]; rfl
  | cons c t ih =>
    unfold dollars
    by_cases h : c = '$'
    · subst h
      rw [if_pos rfl, promptOut_code (by decide), ih]
      rfl
    · rw [if_neg h, promptOut_plain h, ih]
      rfl

theorem look_newline (scr : Screen) (o : List Shown) (ps : List Piece) (h : receives scr ps = look scr o) :
    receives scr (ps ++ [Piece.char '\n']) = look scr (o ++ [.char '\n']) := by
  rw [receives_append, look_append, h]
  rfl

/-! ### The property -/

/-- Everything the manual says about the text of a prompt: characters are shown as they are, the codes of the table show what the table
says, and from `$xBF;` on the background is `B` and the text colour is `F`, whatever the screen was. -/
theorem C64_prompt (e : PromptCtx) (b f : Colour) (s : List Char) (o : List Shown) (hd : e.dir ≠ []) (hc : Holds e.col b f)
    (h : Prompts e b f s o) (scr : Screen) : receives scr (promptOut e s) = look scr o :=
  prompts_shown h hd hc scr

/-- Any text can be shown: it is enough to double the dollars. -/
theorem C64_literal (e : PromptCtx) (t : List Char) (scr : Screen) : receives scr (promptOut e (dollars t)) = (t.map (·, scr), scr) := by
  rw [promptOut_dollars, receives_chars]

/-- `PECHO text` shows the text by the same rules and a new line. -/
theorem C64_pecho (ex : List Char → Res (List Char)) (e : PromptCtx) (b f : Colour) (c : Char) (t s : List Char) (o : List Shown)
    (hd : e.dir ≠ []) (hc : Holds e.col b f) (h : Prompts e b f s o) (hex : ex t = .ok s)
    (hs : (c = ' ' ∨ c = '\t') ∧ s ≠ "/?".toList ∨ ispunct c = true) (scr : Screen) :
    ∃ ps, cmdPecho ex e (c :: t) = .ok (.written ps) ∧ receives scr ps = look scr (o ++ [.char '\n']) := by
  refine ⟨_, ?_, look_newline scr o _ (C64_prompt e b f s o hd hc h scr)⟩
  unfold cmdPecho
  rcases hs with ⟨rfl | rfl, hs⟩ | hs
  · rw [if_neg (by simp [glued])]
    simp only [hex, Res.ok_bind]
    rw [if_neg (fun h => hs h.2)]
  · rw [if_neg (by simp [glued])]
    simp only [hex, Res.ok_bind]
    rw [if_neg (fun h => hs h.2)]
  · rw [if_neg (by simp [glued, hs])]
    simp only [hex, Res.ok_bind]
    rw [if_neg (fun h => by simp [hs] at h)]

/-- Any text can be shown by `PECHO.`: escaped for the interpreter, dollars doubled. -/
theorem C64_pecho_literal (x : Bool) (loops : LocalBlock) (mods : List Char → Char → List Char → List Char)
    (getv : List Char → Res (Option (List Char))) (q : Char → Bool) (hqc : q '^' = true) (hqp : q '%' = true) (hqe : q '!' = true)
    (e : PromptCtx) (t : List Char) :
    cmdPecho (delayedExpand x loops mods getv) e ('.' :: escape q (dollars t)) = .ok (.written ((t ++ ['\n']).map Piece.char)) := by
  unfold cmdPecho
  rw [if_neg (by simp [glued, ispunct])]
  simp only [delayedExpand_escape x loops mods getv hqc hqp hqe, Res.ok_bind]
  rw [if_neg (fun h => by have := h.1; revert this; decide), promptOut_dollars]
  simp

/-- PROMPT sets the variable, and no other; the next prompts show the text given.  Without text they show the directory and `>`. -/
theorem C64_set (L : LibC) (ex : List Char → Res (List Char)) (pos : Bool) (env : EnvBuf) (M : Map) (hR : EnvRep pos env M)
    (addr cpy a : Int) (ha : SameSide pos addr) (hc : SameSide pos cpy) (ha' : SameSide pos a) (e : PromptCtx) (line s : List Char)
    (hex : ex (skipBlanks line) = .ok s) (hs : s ≠ "/?".toList) :
    ∃ env', cmdPrompt L ex env addr cpy line = .ok (some env') ∧
      EnvRep pos env' (M.put "prompt".toList (some (if s = [] then "$P$G".toList else s))) ∧
      outputPrompt L env' a e = if s = [] then (e.dir ++ ['>']).map Piece.char else promptOut e s := by
  have hne : (if s = [] then "$P$G".toList else s) ≠ [] := by split <;> simp_all
  obtain ⟨env', he, hR'⟩ := setEnvEx_spec (L := L) hR (n := ⟨addr, "PROMPT".toList⟩)
    (c := if s = [] then "$P$G".toList else s) (cpy := cpy) (inh := false) ha hc
  rw [if_neg hne, show fold (trim "PROMPT".toList) = "prompt".toList from by decide] at hR'
  refine ⟨env', ?_, hR', ?_⟩
  · unfold cmdPrompt
    simp only [hex, Res.ok_bind]
    rw [if_neg hs, he]
    rfl
  · unfold outputPrompt
    rw [getEnv_spec hR' ha', show fold "PROMPT".toList = "prompt".toList from by decide]
    simp only [Map.put, if_true, Option.getD_some]
    split
    · have h1 : promptOut e "$P$G".toList = (promptCode e 'p').map Piece.char ++ ((promptCode e 'g').map Piece.char ++ promptOut e []) := by
        rw [show "$P$G".toList = '$' :: 'P' :: '$' :: 'G' :: [] from rfl, promptOut_code (by decide), promptOut_code (by decide)]
        rfl
      rw [h1, promptOut]
      simp [promptCode]
    · rfl

theorem receives_text (ps : List Piece) : ∀ scr : Screen,
    (receives scr ps).1.map Prod.fst = ps.filterMap (fun p => match p with | .char c => some c | .color _ => none) := by
  induction ps with
  | nil => intro scr; rfl
  | cons p ps ih =>
    intro scr
    cases p with
    | char c => simp only [receives, List.map_cons, List.filterMap_cons]; rw [ih]
    | color n => simp only [receives, List.filterMap_cons]; exact ih _

/-- The code `$xF;` with one character is not shown either: the text is that of what follows. -/
theorem C64_one_digit (e : PromptCtx) (x cf : Char) (s : List Char) (hx : x.toLower = 'x') (scr : Screen) :
    (receives scr (promptOut e ('$' :: x :: cf :: ';' :: s))).1.map Prod.fst = (receives scr (promptOut e s)).1.map Prod.fst := by
  rw [promptOut.eq_3, if_pos rfl]
  simp only [hx, if_true, promptColor]
  rw [receives_text, receives_text, List.filterMap_append]
  cases getColorCode e.col [cf] <;> rfl

/-! ### Violations -/

/-- PECHO without text reads after the end of the line. -/
theorem C64_pecho_bare (ex : List Char → Res (List Char)) (e : PromptCtx) : cmdPecho ex e [] = .ub := rfl

/-- A dollar that begins no code of the manual is not shown, nor is the character after it, although only the codes of the list are said
to be replaced. -/
theorem C64_unknown (e : PromptCtx) (c : Char) (s : List Char) (h : c.toLower ∉ 'x' :: (promptTable e).map Prod.fst) :
    promptOut e ('$' :: c :: s) = promptOut e s := by
  simp only [promptTable, List.map_cons, List.map_nil, List.mem_cons, List.not_mem_nil, or_false, not_or] at h
  rw [promptOut_code h.1]
  have : promptCode e c.toLower = [] := by
    unfold promptCode
    simp [h]
  rw [this]
  rfl

/-- Nor is a dollar at the end. -/
theorem C64_last_dollar (e : PromptCtx) : promptOut e ['$'] = [] := by
  rw [promptOut.eq_2, if_pos rfl]

/-! ### Examples -/

def promptEx : PromptCtx := ⟨"11/16".toList, "10:00".toList, some "me".toList, none, "/home".toList, 2, 0x300⟩

example : Prompts promptEx none none ['$', 'P', '$', 'x', '4', '.', ';', '$', '+', '>', '$', '$']
    ("/home".toList.map .char ++ .colour (some 4) none :: ("++".toList.map .char ++ .char '>' :: ("$".toList.map .char ++ []))) := by
  refine .code (t := "/home".toList) ?_ (.colour rfl (.digit (d := 4) rfl) .dot
    (.code (t := "++".toList) ?_ (.plain (by decide) (.code (t := "$".toList) ?_ .nil)))) <;> decide

example : Holds promptEx.col none none := ⟨rfl, rfl⟩

example : promptOut promptEx "a$zb".toList = "ab".toList.map Piece.char := by decide +kernel

end PBat
