import Verif.Model.Start
import Verif.Spec.Start
import Verif.Lemmas.Startup
/-
Lemmas about START.
-/
namespace PBat
open Spec

variable {W : Type}

theorem startWait_iff (t : List Char) : startWait t = true ↔ fold t = ['/', 'w', 'a', 'i', 't'] ∨ fold t = ['/', 'w'] := by
  simp only [startWait, Bool.or_eq_true, decide_eq_true_eq, stricmp_zero]
  exact Iff.rfl

theorem startSkips_iff (t : List Char) : startSkips t = true ↔
    fold t = ['/', 'n', 'o', 'd', 'e'] ∨ fold t = ['/', 'a', 'f', 'f', 'i', 'n', 'i', 't', 'y'] := by
  simp only [startSkips, Bool.or_eq_true, decide_eq_true_eq, stricmp_zero]
  exact Iff.rfl

theorem startIgnored_iff (t : List Char) : startIgnored t = true ↔ StartSwitch t .ignored := by
  simp only [startIgnored, List.any_cons, List.any_nil, Bool.or_false, Bool.or_eq_true, decide_eq_true_eq, stricmp_zero]
  constructor
  · intro h
    refine .ignored ?_
    simp only [List.mem_cons, List.not_mem_nil, or_false]
    exact h
  · rintro (_ | _ | h)
    simp only [List.mem_cons, List.not_mem_nil, or_false] at h
    exact h

theorem is_b (t : List Char) : stricmp t "/B".toList = 0 ↔ fold t = ['/', 'b'] := stricmp_zero
theorem is_d (t : List Char) : stricmp t "/D".toList = 0 ↔ fold t = ['/', 'd'] := stricmp_zero
theorem is_help (t : List Char) : stricmp t "/?".toList = 0 ↔ fold t = ['/', '?'] := stricmp_zero

/-- The flags after the items. -/
def startFlags (full : List Char → List Char) (f : StartFlags) : List StartItem → StartFlags
  | [] => f
  | .wait :: is => startFlags full { f with wait := true } is
  | .back :: is => startFlags full { f with sep := false } is
  | .ignored :: is => startFlags full f is
  | .dir d :: is => startFlags full { f with dir := some (full d) } is
  | .title t :: is => startFlags full { f with title := some t } is

theorem prefix_one {q : Char → Bool} (hq : q '"' = true) (hc : q '^' = true) (hp : q '%' = true) (he : q '!' = true) (c : Ctx)
    {line o tail : List Char} (h : ParamPrefix q line [o] tail) : nextParam stdDelims c.ex line = .ok (some (o, tail)) ∧ tail.length < line.length := by
  obtain ⟨t, e1, e2, e3⟩ := prefix_next hq hc hp he c h
  have ht : t = tail := by
    rcases e3 with ⟨-, e⟩ | e
    · exact e
    · cases e
  subst ht
  exact ⟨e1, e2⟩

theorem prefix_two {q : Char → Bool} (hq : q '"' = true) (hc : q '^' = true) (hp : q '%' = true) (he : q '!' = true) (c : Ctx)
    {line o v tail : List Char} (h : ParamPrefix q line [o, v] tail) : ∃ t, nextParam stdDelims c.ex line = .ok (some (o, t)) ∧ t.length < line.length ∧
      nextParam stdDelims c.ex t = .ok (some (v, tail)) ∧ tail.length < t.length := by
  obtain ⟨t, e1, e2, e3⟩ := prefix_next hq hc hp he c h
  rcases e3 with ⟨e, -⟩ | e3
  · simp at e
  · exact ⟨t, e1, e2, prefix_one hq hc hp he c e3⟩

theorem startScan_switch (c : Ctx) (e : StartEnv W) (hex : e.ex = c.ex) (f : StartFlags) {line o tail : List Char} {i : StartItem}
    (h : nextParam stdDelims c.ex line = .ok (some (o, tail))) (hl : tail.length < line.length) (hs : StartSwitch o i) :
    startScan e f line = startScan e (startFlags e.full f [i]) tail := by
  rw [startScan.eq_1, hex, h]
  simp only [is_help, is_b, is_d, startWait_iff, startSkips_iff]
  cases hs with
  | wait ho =>
    rw [if_neg (by rcases ho with ho | ho <;> rw [ho] <;> decide), if_pos ho, if_pos hl]
    rfl
  | back ho =>
    rw [if_neg (by rw [ho]; decide), if_neg (by rw [ho]; decide), if_pos ho, if_pos hl]
    rfl
  | ignored ho =>
    have key : ∀ x : List Char, x ∉ [['/', 'n', 'o', 'r', 'm', 'a', 'l'], ['/', 's', 'h', 'a', 'r', 'e', 'd'],
      ['/', 's', 'e', 'p', 'a', 'r', 'a', 't', 'e'], ['/', 'h', 'i', 'g', 'h'], ['/', 'l', 'o', 'w'],
      ['/', 'r', 'e', 'a', 'l', 't', 'i', 'm', 'e'], ['/', 'a', 'b', 'o', 'v', 'e', 'n', 'o', 'r', 'm', 'a', 'l'],
      ['/', 'b', 'e', 'l', 'o', 'w', 'n', 'o', 'r', 'm', 'a', 'l']] → fold o ≠ x := fun x hx he => hx (he ▸ ho)
    rw [if_neg (key _ (by decide)), if_neg (by rintro (h | h) <;> exact key _ (by decide) h), if_neg (key _ (by decide)),
      if_pos ((startIgnored_iff o).2 (.ignored ho)), if_pos hl]
    rfl

theorem startScan_value (c : Ctx) (e : StartEnv W) (hex : e.ex = c.ex) (f : StartFlags) {line o v t tail : List Char} {i : StartItem}
    (h : nextParam stdDelims c.ex line = .ok (some (o, t))) (h2 : nextParam stdDelims c.ex t = .ok (some (v, tail)))
    (hl : tail.length < line.length) (hs : StartValue o v i) (hd : i.isDir = true → f.dir = none) :
    startScan e f line = startScan e (startFlags e.full f [i]) tail := by
  rw [startScan.eq_1, hex, h]
  simp only [is_help, is_b, is_d, startWait_iff, startSkips_iff]
  have ign : ∀ x : List Char, fold o = x → x ∉ [['/', 'n', 'o', 'r', 'm', 'a', 'l'], ['/', 's', 'h', 'a', 'r', 'e', 'd'],
      ['/', 's', 'e', 'p', 'a', 'r', 'a', 't', 'e'], ['/', 'h', 'i', 'g', 'h'], ['/', 'l', 'o', 'w'],
      ['/', 'r', 'e', 'a', 'l', 't', 'i', 'm', 'e'], ['/', 'a', 'b', 'o', 'v', 'e', 'n', 'o', 'r', 'm', 'a', 'l'],
      ['/', 'b', 'e', 'l', 'o', 'w', 'n', 'o', 'r', 'm', 'a', 'l']] → ¬ startIgnored o = true := by
    intro x hx hn h
    obtain _ | _ | h := (startIgnored_iff o).1 h
    exact hn (hx ▸ h)
  cases hs with
  | ignored ho =>
    rw [if_neg (by rcases ho with ho | ho <;> rw [ho] <;> decide), if_neg (by rcases ho with ho | ho <;> rw [ho] <;> decide),
      if_neg (by rcases ho with ho | ho <;> rw [ho] <;> decide),
      if_neg (by rcases ho with ho | ho <;> exact ign _ ho (by decide)), if_pos ho, h2]
    simp only [if_pos hl]
    rfl
  | dir ho =>
    rw [if_neg (by rw [ho]; decide), if_neg (by rw [ho]; decide), if_neg (by rw [ho]; decide), if_neg (ign _ ho (by decide)),
      if_neg (by rw [ho]; decide), if_pos ho, if_neg (by simp [hd rfl]), h2]
    simp only [if_pos hl]
    rfl

theorem startScan_other (c : Ctx) (e : StartEnv W) (hex : e.ex = c.ex) (f : StartFlags) {line o tail : List Char}
    (h : nextParam stdDelims c.ex line = .ok (some (o, tail))) (hs : NoSwitch o) : startScan e f line =
      if (skipBlanks line).head? = some '"' ∧ f.title = none then
        if tail.length < line.length then startScan e { f with title := some o } tail else .hang
      else startTarget e f o line := by
  obtain ⟨h1, h2, h3⟩ := hs
  rw [startScan.eq_1, hex, h]
  simp only [is_help, is_b, is_d, startWait_iff, startSkips_iff]
  rw [if_neg h1, if_neg fun h => h2 _ (.wait h), if_neg fun h => h2 _ (.back h), if_neg fun h => h2 _ ((startIgnored_iff o).1 h), if_neg fun h => h3 [] _ (.ignored h),
    if_neg fun h => h3 [] _ (.dir h)]

theorem startFlags_cons (full : List Char → List Char) (f : StartFlags) (i : StartItem) (is : List StartItem) :
    startFlags full f (i :: is) = startFlags full (startFlags full f [i]) is := by
  cases i <;> rfl

theorem startScan_items {q : Char → Bool} (hq : q '"' = true) (hc : q '^' = true) (hp : q '%' = true) (he : q '!' = true) (c : Ctx)
    (e : StartEnv W) (hex : e.ex = c.ex) {line rest : List Char} {is : List StartItem} (h : StartLine q line is rest) (f : StartFlags)
    (hd : is.countP StartItem.isDir + (if f.dir = none then 0 else 1) ≤ 1)
    (ht : is.countP StartItem.isTitle + (if f.title = none then 0 else 1) ≤ 1) :
    startScan e f line = startScan e (startFlags e.full f is) rest := by
  induction h generalizing f with
  | nil => rfl
  | @switch line o i tail is rest h1 h2 _ ih =>
    obtain ⟨e1, e2⟩ := prefix_one hq hc hp he c h1
    rw [startScan_switch c e hex f e1 e2 h2, startFlags_cons e.full f i is]
    have hi : i.isDir = false ∧ i.isTitle = false ∧ (startFlags e.full f [i]).dir = f.dir ∧ (startFlags e.full f [i]).title = f.title := by
      cases h2 <;> exact ⟨rfl, rfl, rfl, rfl⟩
    rw [List.countP_cons_of_neg (by simp [hi.1])] at hd
    rw [List.countP_cons_of_neg (by simp [hi.2.1])] at ht
    exact ih _ (by rw [hi.2.2.1]; exact hd) (by rw [hi.2.2.2]; exact ht)
  | @value line o v i tail is rest h1 h2 _ ih =>
    obtain ⟨t, e1, e2, e3, e4⟩ := prefix_two hq hc hp he c h1
    rw [startScan_value c e hex f e1 e3 (by omega) h2, startFlags_cons e.full f i is]
    · cases h2 with
      | ignored _ =>
        rw [List.countP_cons_of_neg (by simp [StartItem.isDir])] at hd
        rw [List.countP_cons_of_neg (by simp [StartItem.isTitle])] at ht
        exact ih _ hd ht
      | dir _ =>
        rw [List.countP_cons_of_pos (by simp [StartItem.isDir])] at hd
        rw [List.countP_cons_of_neg (by simp [StartItem.isTitle])] at ht
        exact ih _ (by rw [if_neg (by simp [startFlags])]; omega) ht
    · intro hi
      rw [List.countP_cons_of_pos (by simp [hi])] at hd
      cases hf : f.dir with
      | none => rfl
      | some d => rw [if_neg (by simp [hf])] at hd; omega
  | @title w t tail is rest h1 h2 h3 _ ih =>
    have hn : nextParam stdDelims c.ex (w ++ '"' :: (escape q t ++ ['"']) ++ tail) = .ok (some (t, tail)) := by
      have := readsAs_written hq hc hp he (Written.quoted (q := q) (a := t)) c w tail h1 h3
      simpa using this
    have hf : f.title = none := by
      rw [List.countP_cons_of_pos (by simp [StartItem.isTitle])] at ht
      cases hf : f.title with
      | none => rfl
      | some d => rw [if_neg (by simp [hf])] at ht; omega
    have hsk : (skipBlanks (w ++ '"' :: (escape q t ++ ['"']) ++ tail)).head? = some '"' := by
      rw [List.append_assoc, skipBlanks_append h1, List.cons_append, skipBlanks_stop (by decide)]
      rfl
    rw [startScan_other c e hex f hn h2, if_pos ⟨hsk, hf⟩, if_pos (by simp only [List.length_append, List.length_cons]; omega), startFlags_cons e.full f _ is]
    rw [List.countP_cons_of_neg (by simp [StartItem.isDir])] at hd
    rw [List.countP_cons_of_pos (by simp [StartItem.isTitle])] at ht
    exact ih _ hd (by rw [if_neg (by simp [startFlags])]; omega)

theorem startFlags_wait (full : List Char → List Char) (is : List StartItem) (f : StartFlags) :
    (startFlags full f is).wait = (f.wait || decide (.wait ∈ is)) := by
  induction is generalizing f with
  | nil => simp [startFlags]
  | cons i is ih => cases i <;> simp [startFlags, ih]

theorem startFlags_sep (full : List Char → List Char) (is : List StartItem) (f : StartFlags) :
    (startFlags full f is).sep = (f.sep && !decide (.back ∈ is)) := by
  induction is generalizing f with
  | nil => simp [startFlags]
  | cons i is ih => cases i <;> simp [startFlags, ih]

theorem startFlags_title (full : List Char → List Char) (is : List StartItem) (f : StartFlags) :
    (startFlags full f is).title = none ↔ f.title = none ∧ ∀ t, .title t ∉ is := by
  induction is generalizing f with
  | nil => simp [startFlags]
  | cons i is ih =>
    cases i <;> simp [startFlags, ih]
    exact fun _ => ⟨_, fun h => absurd rfl h⟩

theorem startFlags_dir (full : List Char → List Char) (is : List StartItem) (f : StartFlags) (h : is.countP StartItem.isDir ≤ 1) :
    (∃ v, .dir v ∈ is ∧ (startFlags full f is).dir = some (full v)) ∨ (∀ v, .dir v ∉ is) ∧ (startFlags full f is).dir = f.dir := by
  induction is generalizing f with
  | nil => exact .inr ⟨by simp, rfl⟩
  | cons i is ih =>
    cases i with
    | dir d =>
      rw [List.countP_cons_of_pos (by rfl)] at h
      have h0 : ∀ v, .dir v ∉ is := by
        intro v hv
        have := List.countP_pos_iff.2 ⟨_, hv, (rfl : StartItem.isDir (.dir v) = true)⟩
        omega
      left
      refine ⟨d, by simp, ?_⟩
      rcases ih { f with dir := some (full d) } (by omega) with ⟨v, hv, -⟩ | ⟨-, h2⟩
      · exact absurd hv (h0 v)
      · exact h2
    | wait =>
      rcases ih { f with wait := true } h with ⟨v, hv, h2⟩ | ⟨h1, h2⟩
      · exact .inl ⟨v, by simp [hv], h2⟩
      · exact .inr ⟨by simpa using h1, h2⟩
    | back =>
      rcases ih { f with sep := false } h with ⟨v, hv, h2⟩ | ⟨h1, h2⟩
      · exact .inl ⟨v, by simp [hv], h2⟩
      · exact .inr ⟨by simpa using h1, h2⟩
    | ignored =>
      rcases ih f h with ⟨v, hv, h2⟩ | ⟨h1, h2⟩
      · exact .inl ⟨v, by simp [hv], h2⟩
      · exact .inr ⟨by simpa using h1, h2⟩
    | title t =>
      rcases ih { f with title := some t } h with ⟨v, hv, h2⟩ | ⟨h1, h2⟩
      · exact .inl ⟨v, by simp [hv], h2⟩
      · exact .inr ⟨by simpa using h1, h2⟩

theorem onlyDir (is : List StartItem) (h : is.countP StartItem.isDir ≤ 1) {v v' : List Char} (h1 : .dir v ∈ is) (h2 : .dir v' ∈ is) : v = v' := by
  induction is with
  | nil => simp at h1
  | cons i is ih =>
    have tail : ∀ {u u' : List Char}, StartItem.dir u = i → .dir u' ∈ is → False := by
      rintro u u' rfl hu'
      rw [List.countP_cons_of_pos (by rfl)] at h
      have := List.countP_pos_iff.2 ⟨_, hu', (rfl : StartItem.isDir (.dir u') = true)⟩
      omega
    rcases List.mem_cons.1 h1 with e1 | e1 <;> rcases List.mem_cons.1 h2 with e2 | e2
    · rw [← e2] at e1; cases e1; rfl
    · exact absurd e2 (tail e1)
    · exact absurd e1 (tail e2)
    · refine ih ?_ e1 e2
      by_cases hi : i.isDir = true
      · rw [List.countP_cons_of_pos hi] at h; omega
      · rwa [List.countP_cons_of_neg hi] at h

/-- The modes given to a new interpreter. -/
def shellModes (e : StartEnv W) : List Char := 'q' :: ((if e.echo then [] else ['e']) ++ if e.cmdly then ['c'] else [])

theorem startShell_eq (e : StartEnv W) : startShell e = e.exe ++ ' ' :: ('/' :: 'a' :: ':' :: shellModes e) := by
  simp [startShell, shellModes]

theorem shellModes_chars (e : StartEnv W) : ∀ d ∈ '/' :: 'a' :: ':' :: shellModes e, d = '/' ∨ d = 'a' ∨ d = ':' ∨ d = 'q' ∨ d = 'e' ∨ d = 'c' := by
  unfold shellModes
  cases e.echo <;> cases e.cmdly <;> simp

theorem reads_word (c : Ctx) {a : List Char} (hne : a ≠ []) (hb : ∀ d ∈ a, ¬ Blank d ∧ d ≠ '"') (hs : Still a) : ReadsAs a a := by
  have hw : Written (fun d => d == '"' || d == '^' || d == '%' || d == '!') a a :=
    .word hne (fun d hd => (hb d hd).1) (fun hm => (hb _ hm).2 rfl) fun d hd => by
      obtain ⟨h1, h2, h3⟩ := hs d hd
      simp [h1, h2, h3, (hb d hd).2]
  exact readsAs_written (by decide) (by decide) (by decide) (by decide) hw

theorem shell_kept (c : Ctx) (e : StartEnv W) (hne : e.exe ≠ []) (hb : ∀ d ∈ e.exe, ¬ Blank d ∧ d ≠ '"') (hs : Still e.exe)
    {t : List Char} {as : List (List Char)} (ht : Stops t) (hk : Kept t as) :
    Kept (startShell e ++ t) (e.exe :: ('/' :: 'a' :: ':' :: shellModes e) :: as) := by
  have hm : ReadsAs ('/' :: 'a' :: ':' :: shellModes e) ('/' :: 'a' :: ':' :: shellModes e) := by
    refine reads_word c (by simp) (fun d hd => ?_) fun d hd => ?_
    · rcases shellModes_chars e d hd with rfl | rfl | rfl | rfl | rfl | rfl <;> decide
    · rcases shellModes_chars e d hd with rfl | rfl | rfl | rfl | rfl | rfl <;> decide
  have k1 := Kept.cons (w := [' ']) (by simp [Blank]) hm ht hk
  have k2 := Kept.cons (w := []) (by simp) (reads_word c hne hb hs) (.inr ⟨' ', _, rfl, .inl rfl⟩) k1
  rw [startShell_eq]
  simpa using k2

theorem still_modes (e : StartEnv W) : Still ('/' :: 'a' :: ':' :: shellModes e) := by
  intro d hd
  rcases shellModes_chars e d hd with rfl | rfl | rfl | rfl | rfl | rfl <;> decide

theorem shellModes_word (e : StartEnv W) : ModesWords ['/' :: 'a' :: ':' :: shellModes e] [shellModes e] := .cons (.colon (a := ['a']) (.inl rfl)) .nil

theorem shellModes_asked (e : StartEnv W) : ¬ ModeAsked 'v' [shellModes e] ∧ (ModeAsked 'e' [shellModes e] ↔ e.echo = false) ∧
    (ModeAsked 'c' [shellModes e] ↔ e.cmdly = true) ∧ ModeAsked 'q' [shellModes e] := by
  unfold shellModes
  cases e.echo <;> cases e.cmdly <;> decide

theorem nextParam_blanks (c : Ctx) {rest : List Char} (hr : ∀ d ∈ rest, Blank d) : nextParam stdDelims c.ex rest = .ok none := by
  have := skipBlanks_append (s := []) hr
  rw [List.append_nil] at this
  exact nextParam_nil _ _ _ this

theorem sep_flags {full : List Char → List Char} {is : List StartItem} {start : Option (List Char)} (hs : .back ∈ is ∨ start = none) :
    (startFlags full {} is).sep = false ∨ start = none := by
  rcases hs with hs | hs
  · left; rw [startFlags_sep]; simp [hs]
  · exact .inr hs

end PBat
