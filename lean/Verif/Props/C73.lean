import Verif.Lemmas.ForInput
import Verif.Props.C72
import Verif.Props.C23
/-
C73: where FOR /F takes its lines from.
-/
namespace PBat
open Spec

variable {σ : Type}

/-- What FOR /F does with the lines `ls`: the body runs for the lines wanted, the variables are gone afterwards. -/
def runsOver (info : ForInfo) (cc : Bool) (body : LocalBlock × σ → Res ((LocalBlock × σ) × Bool)) (ls : List (List Char))
    (st : LocalBlock × σ) : Res (Option (Except InputError (LocalBlock × σ))) := do
  let st' ← forValues (fun l st => body (forSplitTokens info.delims l info.tokens info.var st.1, st.2))
    (wanted info.skip.toNat info.eol (inputLines cc ls)) st
  pure (some (.ok (forUnassign st'.1 info.var.toNat info.tokens.length, st'.2)))

theorem forAdjust_quoted {q : Char} {t r : List Char} (h : q ∉ t) : forAdjust (q :: (t ++ q :: r)) = some t := by
  simp only [forAdjust]
  rw [if_pos (by simp)]
  congr 1
  induction t with
  | nil => simp
  | cons c t ih =>
    simp only [List.mem_cons, not_or] at h
    simp [Ne.symm h.1, ih h.2]

theorem runs_source {ex : List Char → Res (List Char)} {full out : List Char → List Char} {info : ForInfo} {bq cc : Bool}
    {op : σ → List Char → Option (List Char)} {body : LocalBlock × σ → Res ((LocalBlock × σ) × Bool)} {set : List Char}
    {st : LocalBlock × σ} {src : ForSrc} {content : List Char → List Char} {ls : List (List Char)}
    (hfree : ¬ (info.tokens ≠ [] ∧ localName info.var ∧ (st.1 info.var).isSome))
    (hm : forMakeInput ex full (op st.2) out bq set = .ok (.ok src)) (hop : ∀ x, src.Opens (op x) content)
    (hls : lineTexts cc (src.raws content) = ls.filter (keptLine cc)) (hp : PlainLines cc info.eol ls) :
    forFCmd ex full out info bq cc op body set st = runsOver info cc body ls st := by
  unfold forFCmd runsOver
  rw [if_neg hfree, hm]
  simp only [Res.ok_bind]
  rw [forFRead_spec _ _ _ hop rfl, hls, kept_plain hp.2, forFLoop_wanted _ _ _ _ _ hp.1]

/-- A text between double quotes (simple quotes with `usebackq`) is read line by line. -/
theorem C73_text_partial {ex : List Char → Res (List Char)} {full out : List Char → List Char} {info : ForInfo} {bq cc : Bool}
    {op : σ → List Char → Option (List Char)} {body : LocalBlock × σ → Res ((LocalBlock × σ) × Bool)} {st : LocalBlock × σ}
    {q : Char} (hq : q = if bq then '\'' else '"') {t : List Char} (ht : q ∉ t) {ls : List (List Char)} (hls : TextLines t ls)
    (hfree : ¬ (info.tokens ≠ [] ∧ localName info.var ∧ (st.1 info.var).isSome)) (hp : PlainLines cc info.eol ls) :
    forFCmd ex full out info bq cc op body (q :: (t ++ [q])) st = runsOver info cc body ls st := by
  refine runs_source (src := .text t) (content := id) hfree ?_ (fun _ => trivial) ?_ hp
  · unfold forMakeInput
    rw [forAdjust_quoted ht]
    cases bq <;> (simp only [Bool.false_eq_true, if_false, if_true] at hq; subst hq; rfl)
  · show lineTexts cc (stringLines t) = _
    rw [(C48_lines t ls).2 hls, lineTexts_clean (textLines_clean hls)]

/-- A command between simple quotes (backquotes with `usebackq`) is run and what it writes is read line by line. -/
theorem C73_command_partial {ex : List Char → Res (List Char)} {full out : List Char → List Char} {info : ForInfo} {bq cc : Bool}
    {op : σ → List Char → Option (List Char)} {body : LocalBlock × σ → Res ((LocalBlock × σ) × Bool)} {st : LocalBlock × σ}
    {q : Char} (hq : q = if bq then '`' else '\'') {t : List Char} (ht : q ∉ t) {ls : List (List Char)} (hls : ContentLines (out t) ls)
    (hfree : ¬ (info.tokens ≠ [] ∧ localName info.var ∧ (st.1 info.var).isSome)) (hp : PlainLines cc info.eol ls) :
    forFCmd ex full out info bq cc op body (q :: (t ++ [q])) st = runsOver info cc body ls st := by
  refine runs_source (src := .stream (fileLines (out t)) []) (content := id) hfree ?_ (by intro x f hf; cases hf) ?_ hp
  · unfold forMakeInput
    rw [forAdjust_quoted ht]
    cases bq <;> (simp only [Bool.false_eq_true, if_false, if_true] at hq; subst hq; rfl)
  · show lineTexts cc (fileLines (out t) ++ []) = _
    rw [List.append_nil, lineTexts_file hls]

theorem forFiles_params {q : Char → Bool} (hq : q '"' = true) (hc : q '^' = true) (hp : q '%' = true) (he : q '!' = true) (c : Ctx)
    (full : List Char → List Char) {w : List Char} (hw : ∀ x ∈ w, Blank x) : ∀ {ps : List (List Char)} {set : List Char} (n : Nat),
    Params q set ps w → forFiles c.ex full n set = .ok ((ps.take n).map full) := by
  intro ps
  have hsk : skipBlanks w = [] := (skipBlanks_nil_iff w).2 hw
  induction ps with
  | nil =>
    intro set n h
    cases h
    cases n with
    | zero => rw [forFiles, nextParam_nil _ _ _ hsk]; rfl
    | succ n => rw [forFiles, nextParam_nil _ _ _ hsk]; rfl
  | cons p ps ih =>
    intro set n h
    obtain ⟨s, h1, h2⟩ := start_next hq hc hp he c h
    cases n with
    | zero => rw [forFiles, h1]; rfl
    | succ n =>
      rw [forFiles, h1]
      simp only [Res.ok_bind, ih n h2]
      rfl

/-- A set that begins with none of the quotes is a list of files. -/
def FileSet (bq : Bool) (set : List Char) : Prop := set.head? ≠ some '\'' ∧ set.head? ≠ some '`' ∧ (bq = false → set.head? ≠ some '"')

theorem forMakeInput_files {ex : List Char → Res (List Char)} {full out : List Char → List Char} {op : List Char → Option (List Char)}
    {bq : Bool} {set : List Char} (h : FileSet bq set) {f : List Char} {fs : List (List Char)}
    (hf : forFiles ex full 128 set = .ok (f :: fs)) : forMakeInput ex full op out bq set =
      .ok (match op f with | none => .error .fileError | some s => .ok (.stream (fileLines s) fs)) := by
  unfold forMakeInput
  obtain ⟨h1, h2, h3⟩ := h
  simp only [hf, Res.ok_bind, Res.pure_eq]
  split
  · next h => exact absurd h h1
  · next h => exact absurd h h2
  · next h =>
    cases bq with
    | false => exact absurd h (h3 rfl)
    | true => simp only [if_true]; cases op f <;> rfl
  · cases op f <;> rfl

/-- The files named are read one after the other, line by line.  At most 128 files; they can all be opened. -/
theorem C73_files_partial {q : Char → Bool} (hq : q '"' = true) (hc : q '^' = true) (hp : q '%' = true) (he : q '!' = true) (c : Ctx)
    {full out : List Char → List Char} {info : ForInfo} {bq cc : Bool} {op : σ → List Char → Option (List Char)}
    {body : LocalBlock × σ → Res ((LocalBlock × σ) × Bool)} {st : LocalBlock × σ} {set w : List Char} {ps : List (List Char)}
    (hset : Params q set ps w) (hw : ∀ x ∈ w, Blank x) (hne : ps ≠ []) (hlen : ps.length ≤ 128) (hs : FileSet bq set)
    {content : List Char → List Char} {texts : List Char → List (List Char)}
    (hop : ∀ x, ∀ p ∈ ps, op x (full p) = some (content (full p))) (ht : ∀ p ∈ ps, ContentLines (content (full p)) (texts (full p)))
    (hfree : ¬ (info.tokens ≠ [] ∧ localName info.var ∧ (st.1 info.var).isSome))
    (hpl : PlainLines cc info.eol (ps.flatMap (fun p => texts (full p)))) :
    forFCmd c.ex full out info bq cc op body set st = runsOver info cc body (ps.flatMap (fun p => texts (full p))) st := by
  cases ps with
  | nil => exact absurd rfl hne
  | cons p ps =>
    have hf := forFiles_params hq hc hp he c full hw 128 hset
    rw [List.take_of_length_le hlen] at hf
    refine runs_source (src := .stream (fileLines (content (full p))) (ps.map full)) (content := content) hfree ?_ ?_ ?_ hpl
    · rw [forMakeInput_files hs hf, hop st.2 p (by simp)]
    · intro x f hf
      obtain ⟨p', hp', rfl⟩ := List.mem_map.1 hf
      exact hop x p' (by simp [hp'])
    · show lineTexts cc (fileLines (content (full p)) ++ (ps.map full).flatMap (fun f => fileLines (content f))) = _
      rw [lineTexts_append, lineTexts_file (ht p (by simp)), List.flatMap_cons, List.filter_append]
      congr 1
      have ht' : ∀ p ∈ ps, ContentLines (content (full p)) (texts (full p)) := fun x hx => ht x (by simp [hx])
      clear hset hne hlen hop ht hpl hf
      induction ps with
      | nil => rfl
      | cons p ps ih =>
        rw [List.map_cons, List.flatMap_cons, lineTexts_append, lineTexts_file (ht' p (by simp)), List.flatMap_cons, List.filter_append,
          ih (fun x hx => ht' x (by simp [hx]))]

/-- Errors: a first file that cannot be opened, no file at all, a quote that is not closed, a backquote without `usebackq`. -/
theorem C73_errors (c : Ctx) {full out : List Char → List Char} {info : ForInfo} {bq cc : Bool} {op : σ → List Char → Option (List Char)}
    {body : LocalBlock × σ → Res ((LocalBlock × σ) × Bool)} {st : LocalBlock × σ}
    (hfree : ¬ (info.tokens ≠ [] ∧ localName info.var ∧ (st.1 info.var).isSome)) :
    (∀ set, (∀ x ∈ set, Blank x) → forFCmd c.ex full out info bq cc op body set st = .ok (some (.error .noFile))) ∧
    (∀ x t, x ∈ ['\'', '`', '"'] → x ∉ t → ¬ (bq = true ∧ x = '"') → ¬ (bq = false ∧ x = '`') →
      forFCmd c.ex full out info bq cc op body (x :: t) st = .ok (some (.error .badInput))) ∧
    (∀ t, bq = false → forFCmd c.ex full out info bq cc op body ('`' :: t) st = .ok (some (.error .backq))) ∧
    (∀ (q : Char → Bool) set w p ps, q '"' = true → q '^' = true → q '%' = true → q '!' = true → Params q set (p :: ps) w →
      (∀ x ∈ w, Blank x) → FileSet bq set → op st.2 (full p) = none →
      forFCmd c.ex full out info bq cc op body set st = .ok (some (.error .fileError))) := by
  have key : ∀ set e, forMakeInput c.ex full (op st.2) out bq set = .ok (.error e) →
      forFCmd c.ex full out info bq cc op body set st = .ok (some (.error e)) := by
    intro set e h
    unfold forFCmd
    rw [if_neg hfree, h]
    rfl
  refine ⟨?_, ?_, ?_, ?_⟩
  · intro set hset
    apply key
    have hf : forFiles c.ex full 128 set = .ok [] := by
      rw [forFiles, nextParam_nil _ _ _ ((skipBlanks_nil_iff set).2 hset)]; rfl
    unfold forMakeInput
    simp only [hf, Res.ok_bind, Res.pure_eq]
    have hh : ∀ x, ¬ Blank x → set.head? ≠ some x := by
      intro x hx h
      exact hx (hset x (List.mem_of_mem_head? h))
    split
    · next h => exact absurd h (hh _ (by decide))
    · next h => exact absurd h (hh _ (by decide))
    · next h => exact absurd h (hh _ (by decide))
    · rfl
  · intro x t hx ht h1 h2
    apply key
    have ha : forAdjust (x :: t) = none := by simp only [forAdjust]; rw [if_neg ht]
    unfold forMakeInput
    rw [ha]
    simp only [List.mem_cons, List.not_mem_nil, or_false] at hx
    rcases hx with rfl | rfl | rfl
    · cases bq <;> rfl
    · cases bq with
      | true => rfl
      | false => exact absurd ⟨rfl, rfl⟩ h2
    · cases bq with
      | false => rfl
      | true => exact absurd ⟨rfl, rfl⟩ h1
  · intro t hb
    apply key
    subst hb
    rfl
  · intro q set w p ps hq hc hp he hset hw hs hop
    apply key
    have hf := forFiles_params hq hc hp he c full hw 128 hset
    rw [forMakeInput_files hs hf, hop]

/-- FOR /R and FOR /D run DIR and visit every line it writes, whole, provided that the line does not begin with a blank.  The
directory and the mask hold no simple quote. -/
theorem C73_walk_partial {ex : List Char → Res (List Char)} {full out canon : List Char → List Char} {cc : Bool}
    {op : σ → List Char → Option (List Char)} {body : LocalBlock × σ → Res ((LocalBlock × σ) × Bool)} {st : LocalBlock × σ}
    {v : Char} {files : Bool} {dir mask : List Char} (hd : '\'' ∉ canon dir) (hm : '\'' ∉ mask) {ls : List (List Char)}
    (hls : ContentLines (out (['D', 'I', 'R', ' ', '/', 'b', ' ', '/', 's', ' ', '/', 'A', ':'] ++ (if files then ['-', 'D'] else ['D']) ++
      ' ' :: (canon dir ++ '/' :: mask))) ls)
    (hl : ∀ l ∈ ls, ∃ c r, l = c :: r ∧ c ≠ ' ' ∧ ¬ Blank c ∧ (fields [' '] l).length < 65535)
    (hfree : ¬ (localName v ∧ (st.1 v).isSome)) :
    forWalk ex full out canon cc op body v files dir mask st = (do
      let st' ← forValues (fun l st => body (setLocalVar st.1 v (some l), st.2)) ls st
      pure (some (.ok (forUnassign st'.1 v.toNat 1, st'.2)))) := by
  have hset : forWalkSet canon files dir mask = '\'' :: ((['D', 'I', 'R', ' ', '/', 'b', ' ', '/', 's', ' ', '/', 'A', ':'] ++
      (if files then ['-', 'D'] else ['D']) ++ ' ' :: (canon dir ++ '/' :: mask)) ++ ['\'']) := by
    unfold forWalkSet
    cases files <;> simp
  unfold forWalk
  rw [hset, C73_command_partial (ls := ls) (q := '\'') rfl ?_ hls (by simpa using hfree) ?_]
  · unfold runsOver
    have h1 : inputLines cc ls = ls := by
      unfold inputLines
      rw [List.filter_eq_self]
      intro l hl'
      obtain ⟨c, r, rfl, -, h3, -⟩ := hl l hl'
      have : c ≠ ' ' ∧ c ≠ '\t' := ⟨by rintro rfl; exact h3 (by decide), by rintro rfl; exact h3 (by decide)⟩
      simp [this.1, this.2]
    have h2 : wanted (0 : Int).toNat [] ls = ls := by
      unfold wanted
      rw [Int.toNat_zero, List.drop_zero, List.filter_eq_self]
      intro l _
      cases l <;> rfl
    simp only [h1, h2]
    have h3 : ∀ (ls : List (List Char)) (st : LocalBlock × σ),
        (∀ l ∈ ls, ∃ c r, l = c :: r ∧ c ≠ ' ' ∧ ¬ Blank c ∧ (fields [' '] l).length < 65535) →
        forValues (fun l st => body (forSplitTokens [' '] l [1 * 2 ^ 16 + 65535] v st.1, st.2)) ls st =
          forValues (fun l st => body (setLocalVar st.1 v (some l), st.2)) ls st := by
      intro ls
      induction ls with
      | nil => intro _ _; rfl
      | cons l ls ih =>
        intro st hl
        have hv : forSplitTokens [' '] l [1 * 2 ^ 16 + 65535] v st.1 = setLocalVar st.1 v (some l) := by
          rw [forSplitTokens, forSplitTokens]
          congr 2
          obtain ⟨c, r, rfl, h4, -, h5⟩ := hl l (by simp)
          have hf : fields [' '] (c :: r) = (c :: r.takeWhile (fun x => decide (x ∉ [' ']))) :: fields [' '] (r.dropWhile (fun x => decide (x ∉ [' ']))) := by
            rw [fields, if_neg (by simpa using h4)]
          obtain ⟨pre, tok, suf, h6⟩ := FieldAt_exists [' '] (c :: r) 1 (by omega) (by rw [hf]; simp)
          have hpre : pre = [] := by
            have h7 := h6.before
            have h8 := h6.whole
            cases pre with
            | nil => rfl
            | cons x pre =>
              simp only [List.cons_append, List.cons.injEq] at h8
              rw [← h8.1, fields, if_neg (by simpa using h4)] at h7
              simp at h7
          have h7 := C23_rest_partial [' '] (c :: r) 1 pre tok suf h6 h5
          rw [hpre, List.nil_append] at h7
          exact h7
        rw [forValues, forValues]
        simp only [hv]
        split
        · rfl
        · exact ih _ (fun x hx => hl x (by simp [hx]))
        · rfl
        · rfl
    rw [h3 ls st hl]
    rfl
  · cases files <;> simp [hd, hm]
  · refine ⟨.inl rfl, ?_⟩
    intro _ l hl' hb c hc
    obtain ⟨c', r, rfl, -, h3, -⟩ := hl l hl'
    exact absurd (hb c' (by simp)) h3

/-! ### Violations -/

/-- A quote in the text or in the command cuts it: what stands behind is ignored. -/
theorem C73_quote {ex : List Char → Res (List Char)} {full out : List Char → List Char} {op : List Char → Option (List Char)} (bq : Bool)
    {t : List Char} (r r' : List Char) {q : Char} (hq : q = '\'' ∨ q = (if bq then '`' else '"')) (ht : q ∉ t) :
    forMakeInput ex full op out bq (q :: (t ++ q :: r)) = forMakeInput ex full op out bq (q :: (t ++ q :: r')) := by
  unfold forMakeInput
  rw [forAdjust_quoted ht, forAdjust_quoted ht]
  cases bq <;> simp only [Bool.false_eq_true, if_false, if_true] at hq <;> rcases hq with rfl | rfl <;> rfl

/-- A blank before the quote makes a text or a command the name of a file: the command is not run. -/
theorem C73_blank {ex : List Char → Res (List Char)} {full out out' : List Char → List Char} {op : List Char → Option (List Char)}
    (bq bq' : Bool) {b : Char} (hb : Blank b) (s : List Char) :
    forMakeInput ex full op out bq (b :: s) = forMakeInput ex full op out' bq' (b :: s) := by
  rcases hb with rfl | rfl | rfl | rfl | rfl <;> rfl

theorem getLine_lost {op : List Char → Option (List Char)} {cc : Bool} {f : List Char} {fs : List (List Char)} (hop : op f = none) :
    ∀ ls : List (List Char), forGetLine op cc (.stream ls (f :: fs)) = (none, .lost) ∨
      ∃ l ls', forGetLine op cc (.stream ls (f :: fs)) = (some l, .stream ls' (f :: fs)) ∧ ls'.length < ls.length := by
  intro ls
  induction ls with
  | nil =>
    left
    rw [forGetLine]
    have : rawLine op (.stream [] (f :: fs)) = (none, .lost) := by
      unfold rawLine
      simp only
      rw [nextFile, hop]
    rw [this]
  | cons l ls ih =>
    rw [forGetLine]
    have : rawLine op (.stream (l :: ls) (f :: fs)) = (some l, .stream ls (f :: fs)) := rfl
    rw [this]
    simp only
    split
    · rcases ih with h | ⟨l', ls', h, h'⟩
      · exact .inl h
      · exact .inr ⟨l', ls', h, by simp; omega⟩
    · exact .inr ⟨_, ls, rfl, by simp⟩

/-- A file other than the first that cannot be opened: the lines before it are visited, then the program closes a stream that is
not there. -/
theorem C73_missing {info : ForInfo} {cc : Bool} {op : σ → List Char → Option (List Char)}
    {body : LocalBlock × σ → Res ((LocalBlock × σ) × Bool)} {f : List Char} {fs : List (List Char)} (hop : ∀ x, op x f = none)
    (hb : ∀ st, ∃ st', body st = .ok (st', false)) (ls : List (List Char)) :
    ∀ (skip : Int) (st : LocalBlock × σ), forFRead info cc op body skip (.stream ls (f :: fs)) st = .ub := by
  induction hn : ls.length using Nat.strongRecOn generalizing ls with
  | ind n ih =>
    intro skip st
    rw [forFRead]
    rcases getLine_lost (cc := cc) (fs := fs) (hop st.2) ls with h | ⟨l, ls', h, h'⟩
    · rw [h]
    · rw [h]
      simp only
      have ih' := ih ls'.length (by omega) ls' rfl
      split
      · exact ih' _ _
      · split
        · exact ih' _ _
        · obtain ⟨st', h2⟩ := hb (forSplitTokens info.delims l info.tokens info.var st.1, st.2)
          rw [h2]
          exact ih' _ _

/-- Of more than 128 files the others are ignored without a message. -/
theorem C73_many {q : Char → Bool} (hq : q '"' = true) (hc : q '^' = true) (hp : q '%' = true) (he : q '!' = true) (c : Ctx)
    {full out : List Char → List Char} {bq : Bool} {op : List Char → Option (List Char)} {set w f : List Char} {ps : List (List Char)}
    (hset : Params q set ps w) (hw : ∀ x ∈ w, Blank x) (hh : ps.head? = some f) {s : List Char} (hs : FileSet bq set)
    (hop : op (full f) = some s) :
    forMakeInput c.ex full op out bq set = .ok (.ok (.stream (fileLines s) (((ps.take 128).map full).drop 1))) := by
  cases ps with
  | nil => cases hh
  | cons p ps =>
    cases hh
    have hf := forFiles_params hq hc hp he c full hw 128 hset
    rw [List.take_succ_cons, List.map_cons] at hf
    rw [forMakeInput_files hs hf, hop]
    rfl

/-- Empty lines are left out although the manual says they are not: with an end-of-line character (and there is one unless the
options say otherwise) the body is never run for them. -/
theorem C73_empty {info : ForInfo} (he : info.eol ≠ []) (body : LocalBlock × σ → Res ((LocalBlock × σ) × Bool)) (ls : List (List Char)) :
    ∀ (st : LocalBlock × σ), forFLoop info body 0 ls st = forFLoop info body 0 (ls.filter (· ≠ [])) st := by
  intro st
  rw [forFLoop_visit info he, forFLoop_visit info he]
  congr 1
  unfold visited
  rw [Int.toNat_zero, List.drop_zero, List.drop_zero, List.filter_filter]
  apply List.filter_congr
  intro l _
  cases l <;> simp

/-- A carriage return that is not followed by a line feed: the rest of the line is lost. -/
theorem C73_lone_cr (cc : Bool) {a b : List Char} (ha : ∀ c ∈ a, c ≠ '\r' ∧ c ≠ '\n') (hx : ∃ c ∈ a, ¬ Blank c) (hb : '\n' ∉ b)
    (hbn : b ≠ []) : lineTexts cc (fileLines (a ++ '\r' :: b ++ ['\n'])) = [a] := by
  have hn : '\n' ∉ a ++ '\r' :: b := by
    intro h
    rcases List.mem_append.1 h with h | h
    · exact (ha _ h).2 rfl
    · rcases List.mem_cons.1 h with h | h
      · exact absurd h (by decide)
      · exact hb h
  have h1 : lines (a ++ '\r' :: b ++ ['\n']) = [a ++ '\r' :: b ++ ['\n']] := by rw [lines_text hn]; rfl
  have h2 : ∀ (a : List Char), (∀ c ∈ a, c ≠ '\r' ∧ c ≠ '\n') → normNL (a ++ '\r' :: (b ++ ['\n'])) = a ++ '\n' :: normNL (b ++ ['\n']) := by
    intro a
    induction a with
    | nil =>
      intro _
      cases b with
      | nil => exact absurd rfl hbn
      | cons d b =>
        have : d ≠ '\n' := by rintro rfl; simp at hb
        simp [normNL, this]
    | cons c a ih =>
      intro ha
      have ih' := ih (fun x hx => ha x (by simp [hx]))
      have hc := (ha c (by simp)).1
      cases a with
      | nil =>
        simp only [List.cons_append, List.nil_append] at ih' ⊢
        rw [normNL, if_neg hc, ih']
      | cons d a =>
        simp only [List.cons_append] at ih' ⊢
        rw [normNL, if_neg hc, ih']
  unfold fileLines
  rw [h1, List.map_singleton, List.append_assoc, List.cons_append, h2 a ha]
  unfold lineTexts
  have hk : keptLine cc (a ++ '\n' :: normNL (b ++ ['\n'])) = true := by
    unfold keptLine
    obtain ⟨c, hc, hnb⟩ := hx
    have : skipBlanks (a ++ '\n' :: normNL (b ++ ['\n'])) ≠ [] := by
      intro h
      exact hnb ((skipBlanks_nil_iff _).1 h c (by simp [hc]))
    simp [this]
  rw [List.filter_cons, if_pos hk]
  simp only [List.filter_nil, List.map_cons, List.map_nil]
  rw [takeWhile_nl (fun h => (ha _ h).2 rfl)]

/-- With CMDLYCORRECT lines of commas or semicolons are left out as well. -/
theorem C73_separators {l : List Char} (h : ∀ c ∈ l, Blank c) (ls : List (List Char)) : lineTexts true (l :: ls) = lineTexts true ls := by
  unfold lineTexts
  rw [List.filter_cons, if_neg]
  simp [keptLine, (skipBlanks_nil_iff l).2 h]

/-! ### Examples -/

/-- Two lines of a file, one of them ended by carriage return and line feed. -/
example : ContentLines ['a', '\r', '\n', 'b', 'c'] [['a'], ['b', 'c']] := by
  refine ⟨?_, .cons (l := ['a']) (by decide) (.last (by decide) (by decide))⟩
  intro i hi
  match i with
  | 0 => exact absurd hi (by decide)
  | 1 => rfl
  | 2 => exact absurd hi (by decide)
  | 3 => exact absurd hi (by decide)
  | 4 => exact absurd hi (by decide)
  | i + 5 => simp at hi

example : PlainLines false [';'] [['a'], ['b', 'c']] := ⟨.inr (by decide), by simp⟩

/-- Two files, the name of the second one quoted. -/
example : Params (fun c => ['"', '^', '%', '!'].contains c) ['a', ' ', '"', 'b', ' ', 'c', '"'] [['a'], ['b', ' ', 'c']] [] ∧
    FileSet false ['a', ' ', '"', 'b', ' ', 'c', '"'] :=
  ⟨.cons (w := []) (x := ['a']) (by simp) (.word (by simp) (by decide) (by decide) (by decide)) (.inr ⟨' ', _, rfl, by decide⟩)
    (.cons (w := [' ']) (x := ['"', 'b', ' ', 'c', '"']) (t := []) (by decide) (.quoted (a := ['b', ' ', 'c'])) (.inl rfl) .nil),
   by decide, by decide, by decide⟩

end PBat
