import Verif.Lemmas.Gettext
import Verif.Lemmas.Shift
/-
C80: translations of messages.
-/
namespace PBat
open Spec

/-- Runs calls one after the other. -/
def runGt (fs : List Char → Option (List Nat)) (g : Gettext) (loc : List Char) : List GtCall → Res (List (List Nat))
  | [] => .ok []
  | .bind d dir :: cs => runGt fs (bindtextdomain g d dir) loc cs
  | .domain d :: cs => runGt fs (textdomain g d) loc cs
  | .locale l :: cs => runGt fs g l cs
  | .get msg :: cs => do
    let r ← gettextMsg fs (fun _ => loc) g msg
    let q ← runGt fs r.2 loc cs
    .ok (r.1 :: q)
  | .dget d msg :: cs => do
    let r ← dcgettext fs (fun _ => loc) g d msg .all
    let q ← runGt fs r.2 loc cs
    .ok (r.1 :: q)

/-- The calls: names of domains of at most 99 characters (for others see `C80_long`), a domain is not empty, locales as well, messages
without terminator. -/
def GtCall.Short : GtCall → Prop
  | .bind d _ => d.length ≤ 99
  | .domain d => d.length ≤ 99 ∧ d ≠ []
  | .locale l => l.length ≤ 99
  | .get msg => 0 ∉ msg
  | .dget _ msg => 0 ∉ msg

/-- For every history of calls: each message is answered by its translation in the catalogue of the domain, in the directory bound last,
for the language of the locale at that time; by itself if there is no catalogue or no translation.  This is so although catalogues are
loaded once only.
Partial: names of at most 99 characters (`C80_long`), files that are catalogues in the format of gettext (`C80_magic`, `C80_short`,
`C80_unterminated`, `C80_negative`, `C80_minus`, `C80_edge`, `C80_big_endian`), locales that are not mixed (`C80_mixed`), languages that are in
the table (`C80_spanish`). -/
theorem C80_history_partial (fs : List Char → Option (List Nat)) (C : List Char → Option (List (List Nat × List Nat))) (hfs : GoodFiles fs C)
    (cs : List GtCall) (hcs : ∀ c ∈ cs, GtCall.Short c) (loc : List Char) (hloc : loc.length ≤ 99) :
    runGt fs {} loc cs = .ok (gtAnswers iso639 C [] ['C'] loc cs) := by
  have key : ∀ (cs : List GtCall), (∀ c ∈ cs, GtCall.Short c) → ∀ (g : Gettext) (h : List (List Char × List Char)) (loc : List Char),
      loc.length ≤ 99 → Cached C g → (∀ d, (g.basedirs.find? (·.1 == d)).map (·.2) = boundTo h d) →
      runGt fs g loc cs = .ok (gtAnswers iso639 C h (if g.current = [] then ['C'] else g.current) loc cs) := by
    intro cs
    induction cs with
    | nil => intros; rfl
    | cons c cs ih =>
      intro hcs g h loc hloc hg hb
      have hc := hcs c (by simp)
      have hcs' : ∀ c ∈ cs, GtCall.Short c := fun c h => hcs c (by simp [h])
      cases c with
      | bind d dir =>
        rw [runGt, gtAnswers, ih hcs' (bindtextdomain g d dir) ((d, dir) :: h) loc hloc hg]
        · rfl
        · intro e
          rw [bind_find g d dir e hc, hb e, boundTo, boundTo, List.find?_cons]
          by_cases he : e = d
          · subst he; simp
          · have : (d == e) = false := by simpa using fun h => he h.symm
            simp [this, he]
      | domain d =>
        have hd : (textdomain g d).current = d := List.take_of_length_le (by have := hc.1; omega)
        rw [runGt, gtAnswers, ih hcs' (textdomain g d) h loc hloc hg hb, hd, if_neg hc.2]
      | locale l => rw [runGt, gtAnswers, ih hcs' g h l hc hg hb]
      | get msg =>
        obtain ⟨ds, e, hds⟩ := dcgettext_spec hfs hg (fun _ => loc) (if g.current = [] then ['C'] else g.current) msg hc .all hloc
        rw [runGt, gtAnswers, gettextMsg, e]
        simp only [Res.ok_bind]
        rw [ih hcs' _ h loc hloc hds hb, hb]
        rfl
      | dget d msg =>
        obtain ⟨ds, e, hds⟩ := dcgettext_spec hfs hg (fun _ => loc) d msg hc .all hloc
        rw [runGt, gtAnswers, e]
        simp only [Res.ok_bind]
        rw [ih hcs' _ h loc hloc hds hb, hb]
        rfl
  exact key cs hcs _ [] loc hloc (by intro q hq; cases hq) (fun d => rfl)

/-- Other categories: the directory is that of the category. -/
theorem C80_category_partial (fs : List Char → Option (List Nat)) (C : List Char → Option (List (List Nat × List Nat))) (hfs : GoodFiles fs C)
    (loc : LocCat → List Char) (d dir : List Char) (hd : d.length ≤ 99) (msg : List Nat) (hm : 0 ∉ msg) (cat : LocCat)
    (hl : (loc cat).length ≤ 99) :
    ∃ g, dcgettext fs loc (bindtextdomain {} d dir) d msg cat =
      .ok (((C (cataloguePath (some dir) (languageOf iso639 (loc cat)) (categoryDir cat) d)).map (translation · msg)).getD msg, g) := by
  have hcat : categoryDir cat = cat.dir := by cases cat <;> decide +kernel
  rw [hcat]
  obtain ⟨ds, e, -⟩ := dcgettext_spec hfs (g := bindtextdomain {} d dir) (by intro q hq; cases hq) loc d msg hm cat hl
  rw [bind_find {} d dir d hd, if_pos rfl] at e
  exact ⟨_, e⟩

/-- Common languages have the codes of the standard. -/
theorem C80_codes : ∀ p ∈ isoCodes, getLang p.1 = .ok p.2 := by decide +kernel

/-- The languages: a name of the table is replaced by its code, another name is kept. -/
theorem C80_language (loc : List Char) (h : loc.length ≤ 99) (hu : '_' ∉ loc) (hlow : loc.map Char.toLower = loc) :
    (∀ p ∈ iso639, p.2 = loc → getLang loc = .ok p.1) ∧ ((∀ p ∈ iso639, p.2 ≠ loc) → getLang loc = .ok loc) := by
  have ht : loc.takeWhile (· ≠ '_') = loc := by
    clear h hlow
    induction loc with
    | nil => rfl
    | cons x l ih =>
      simp only [List.mem_cons, not_or] at hu
      rw [List.takeWhile_cons, if_pos (by simpa using fun e => hu.1 e.symm), ih hu.2]
  rw [getLang_spec loc h, languageOf, ht, hlow]
  constructor
  · intro p hp e
    have hsome : (iso639.find? (·.2 == loc)).isSome := by
      rw [List.find?_isSome]
      exact ⟨p, hp, by simp [e]⟩
    obtain ⟨q, hq⟩ := Option.isSome_iff_exists.1 hsome
    obtain ⟨hq1, j, hj, rfl, -⟩ := List.find?_eq_some_iff_getElem.1 hq
    obtain ⟨i, hi, rfl⟩ := List.getElem_of_mem hp
    have hq2 : iso639[j].2 = loc := by simpa using hq1
    rw [hq]
    rcases Nat.lt_trichotomy i j with h | h | h
    · simp [(lang_sorted i j h hj).2 (by rw [hq2, e])]
    · subst h; rfl
    · simp [(lang_sorted j i h hi).2 (by rw [hq2, e])]
  · intro hne
    rw [List.find?_eq_none.2 (fun p hp => by simpa using hne p hp)]
    rfl

/-! ### Violations -/

/-- The answer of a file. -/
def askFile (buf msg : List Nat) : Res (List Nat) := do
  let r ← loadDomain {} (some buf) [] msg
  .ok r.1

/-- The magic number is not looked at: whatever is in the first four bytes, the file is used. -/
theorem C80_magic (buf : List Nat) (cat : List (List Nat × List Nat)) (h : MoBody buf cat) (msg : List Nat) (hm : 0 ∉ msg) :
    askFile buf msg = .ok (translation cat msg) := by
  obtain ⟨m, e, hl⟩ := moLoad_body h
  rw [askFile, loadDomain, e]
  simp only [Res.ok_bind]
  rw [moLookup_loaded hl msg hm]
  rfl

/-- Files that are too short: fewer than four bytes, or the magic number and fewer than eight others. -/
theorem C80_short (buf msg : List Nat)
    (h : buf.length < 4 ∨ (∃ rest, buf = 0xde :: 0x12 :: 0x04 :: 0x95 :: rest ∧ rest.length < 8)) : askFile buf msg = .ub := by
  have hload : moLoad buf = .ub := by
    rcases h with h | ⟨rest, rfl, h⟩
    · rw [moLoad, moMagic, if_pos (by omega), readInt]
      match buf, h with
      | [], _ => rfl
      | [_], _ => rfl
      | [_, _], _ => rfl
      | [_, _, _], _ => rfl
    · rw [moLoad, moMagic, if_pos (by simp; omega)]
      have h0 : readInt (0xde :: 0x12 :: 0x04 :: 0x95 :: rest) 0 = some (0x950412de - 4294967296) := by simp [readInt]
      have h8 : readInt (0xde :: 0x12 :: 0x04 :: 0x95 :: rest) 8 = none := by
        rw [readInt, if_neg (by omega)]
        have : (0xde :: 0x12 :: 0x04 :: 0x95 :: rest).drop (8 : Int).toNat = rest.drop 4 := rfl
        rw [this]
        have hl : (rest.drop 4).length < 4 := by simp; omega
        match rest.drop 4, hl with
        | [], _ => rfl
        | [_], _ => rfl
        | [_, _], _ => rfl
        | [_, _, _], _ => rfl
      rw [h0, h8]
      rfl
  rw [askFile, loadDomain, hload]
  rfl

/-- A file with the message `a`, its translation `b`. -/
def moSample : List Nat :=
  [0xde, 0x12, 0x04, 0x95, 0, 0, 0, 0, 1, 0, 0, 0, 28, 0, 0, 0, 36, 0, 0, 0, 0, 0, 0, 0, 0, 0, 0, 0,
   1, 0, 0, 0, 44, 0, 0, 0, 1, 0, 0, 0, 46, 0, 0, 0, 97, 0, 98, 0]

/-- The last byte of the file is missing. -/
theorem C80_unterminated : askFile moSample [97] = .ok [98] ∧ askFile moSample.dropLast [97] = .ub := by
  constructor <;> decide +kernel

/-- The place -1. -/
theorem C80_minus : askFile (moSample.take 32 ++ [255, 255, 255, 255] ++ moSample.drop 36) [97] = .ub := by decide +kernel

/-- The number of messages is -1. -/
theorem C80_negative : askFile (moSample.take 8 ++ [255, 255, 255, 255] ++ moSample.drop 12) [97] = .ub := by decide +kernel

/-- A table at the end of the file: the catalogue is not used. -/
theorem C80_edge : askFile [0xde, 0x12, 0x04, 0x95, 0, 0, 0, 0, 1, 0, 0, 0, 32, 0, 0, 0, 40, 0, 0, 0, 0, 0, 0, 0, 0, 0, 0, 0, 97, 0, 98, 0,
   1, 0, 0, 0, 28, 0, 0, 0, 1, 0, 0, 0, 30, 0, 0, 0] [97] = .ok [97] := by decide +kernel

/-- The same file written by a big-endian machine, whose magic number is in the program: the catalogue is not used. -/
theorem C80_big_endian : askFile
  [0x95, 0x04, 0x12, 0xde, 0, 0, 0, 0, 0, 0, 0, 1, 0, 0, 0, 28, 0, 0, 0, 36, 0, 0, 0, 0, 0, 0, 0, 0,
   0, 0, 0, 1, 0, 0, 0, 44, 0, 0, 0, 1, 0, 0, 0, 46, 97, 0, 98, 0] [97] = .ok [97] := by decide +kernel

/-- A domain with a name of more than 99 characters: the directory is not used. -/
theorem C80_long (d dir : List Char) (hd : 99 < d.length) (loc : LocCat → List Char) (cat : LocCat) (hl : (loc cat).length ≤ 99) :
    domainPath (bindtextdomain {} d dir) loc d cat = .ok (cataloguePath none (languageOf iso639 (loc cat)) cat.dir d) := by
  rw [domainPath_spec _ _ _ _ hl]
  have : (d.take 99 == d) = false := by
    simp only [beq_eq_false_iff_ne, ne_eq]
    intro e
    have := congrArg List.length e
    simp at this
    omega
  simp [bindtextdomain, this]

/-- The name of the Spanish language is wrong in the table. -/
theorem C80_spanish : getLang "Spanish_Spain.1252".toList = .ok "spanish".toList ∧ getLang "French_France.1252".toList = .ok "fr".toList := by
  constructor <;> decide +kernel

/-- A locale whose categories differ, as after `setlocale(LC_NUMERIC, "C")`: the language is `lc`. -/
theorem C80_mixed (rest : List Char) : getLang ('L' :: 'C' :: '_' :: rest) = .ok ['l', 'c'] := by
  have : (('L' :: 'C' :: '_' :: rest).take 99).takeWhile (· ≠ '_') = ['L', 'C'] := by simp
  rw [getLang, this]
  decide +kernel

/-- LOCALE with a directory reads the messages from a directory named like the command itself, and reports an error. -/
theorem C80_locale {q : Char → Bool} (hq : q '"' = true) (hc : q '^' = true) (hp : q '%' = true) (he : q '!' = true)
    (hlet : ∀ c ∈ "locale".toList, q c = false) (c : Ctx) (full : List Char → List Char) {x a rest : List Char} (hx : Written q x a)
    (hr : rest = [] ∨ ∃ b r, rest = b :: r ∧ Blank b) :
    cmdLocale c.ex full ("locale".toList ++ ' ' :: (x ++ rest)) = .ok (some (full "locale".toList), false, true) := by
  have hn : Written q "locale".toList "locale".toList := .word (by decide) (by decide) (by decide) hlet
  have h1 := readsAs_written hq hc hp he hn c [] (' ' :: (x ++ rest)) (by simp) (.inr ⟨' ', _, rfl, by decide⟩)
  have h2 := readsAs_written hq hc hp he hx c [' '] rest (by intro d hd; simp at hd; subst hd; decide) hr
  rw [List.nil_append] at h1
  rw [cmdLocale, localeParams, h1]
  simp only [Res.ok_bind]
  rw [List.cons_append, List.nil_append] at h2
  rw [h2]
  rfl

/-! ### Examples -/

/-- The file above is a catalogue. -/
example : MoFile moSample [([97], [98])] := by
  refine ⟨⟨_, _, _, _, _, rfl, by decide, by decide, by decide, by decide, rfl⟩, ⟨_, _, _, _, _, rfl, by decide, by decide, by decide, by decide, rfl⟩,
    ⟨28, ⟨_, _, _, _, _, rfl, by decide, by decide, by decide, by decide, rfl⟩, by decide, ?_⟩,
    ⟨36, ⟨_, _, _, _, _, rfl, by decide, by decide, by decide, by decide, rfl⟩, by decide, ?_⟩, by decide, by decide⟩
  · intro i t h
    match i, h with
    | 0, h => cases h; exact ⟨44, ⟨_, _, _, _, _, rfl, by decide, by decide, by decide, by decide, rfl⟩, ⟨_, rfl⟩, by decide⟩
  · intro i t h
    match i, h with
    | 0, h => cases h; exact ⟨46, ⟨_, _, _, _, _, rfl, by decide, by decide, by decide, by decide, rfl⟩, ⟨_, rfl⟩, by decide⟩

/-- A history: the domain is bound, chosen and asked, in another locale as well. -/
example : runGt (fun p => if p = "d/fr/LC_MESSAGES/pbat.mo".toList then some moSample else none) {} "fr_FR.UTF-8".toList
    [.bind "pbat".toList "d".toList, .domain "pbat".toList, .get [97], .get [98], .locale "en_US".toList, .get [97]] =
    .ok [[98], [98], [97]] := by decide +kernel

end PBat
