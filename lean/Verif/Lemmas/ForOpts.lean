import Verif.Model.ForOpts
import Verif.Spec.ForOpts
import Verif.Lemmas.ReplaceI
import Verif.Lemmas.Tokens
/-
The options of FOR /F: reading what is written.
-/
namespace PBat
open Spec

/-- A beginning in any case. -/
theorem prefixI_split {p s : List Char} (hp : fold p = p) : prefixI p s = true ↔ ∃ a b, s = a ++ b ∧ fold a = p := by
  rw [prefixI_iff]
  constructor
  · rintro ⟨t, ht⟩
    refine ⟨s.take p.length, s.drop p.length, (List.take_append_drop _ _).symm, ?_⟩
    have := congrArg (List.take p.length) ht
    rw [List.take_left' (by simp)] at this
    unfold fold at hp ⊢
    rw [List.map_take, ← this, hp]
  · rintro ⟨a, b, rfl, rfl⟩
    rw [List.map_append]
    unfold fold at hp ⊢
    rw [hp]
    exact List.prefix_append _ _

theorem foldLen (a : List Char) : (fold a).length = a.length := by unfold fold; simp

/-- The kinds of options that have a value. -/
def keyOf : SpecType → List Char
  | .tokens => ['t', 'o', 'k', 'e', 'n', 's', '=']
  | .eol => ['e', 'o', 'l', '=']
  | .delims => ['d', 'e', 'l', 'i', 'm', 's', '=']
  | .skip => ['s', 'k', 'i', 'p', '=']
  | .usebackq => ['u', 's', 'e', 'b', 'a', 'c', 'k', 'q']

theorem keyOf_head {t u : SpecType} {a b a' b' : List Char} (h : a ++ b = a' ++ b') (ha : fold a = keyOf t)
    (ha' : fold a' = keyOf u) : t = u := by
  have e1 : (fold (a ++ b)).head? = (keyOf t).head? := by
    unfold fold at ha ⊢
    rw [List.map_append, ha]
    cases t <;> rfl
  have e2 : (fold (a ++ b)).head? = (keyOf u).head? := by
    rw [h]
    unfold fold at ha' ⊢
    rw [List.map_append, ha']
    cases u <;> rfl
  rw [e1] at e2
  revert e2
  clear h ha ha' e1
  cases t <;> cases u <;> simp [keyOf]

/-- What `pBat_ForIsSpecifier` finds. -/
theorem forIsSpecifier_iff (s : List Char) (t : SpecType) : forIsSpecifier s = some t ↔
    ∃ a b, s = a ++ b ∧ fold a = keyOf t ∧ (t = .usebackq → b = [] ∨ ∃ b', b = ' ' :: b') := by
  have hk : ∀ u : SpecType, prefixI (keyOf u) s = true ↔ ∃ a b, s = a ++ b ∧ fold a = keyOf u :=
    fun u => prefixI_split (by cases u <;> decide)
  have no : ∀ {u a b}, s = a ++ b → fold a = keyOf u → ∀ v, v ≠ u → prefixI (keyOf v) s ≠ true := by
    intro u a b hs ha v hv h
    obtain ⟨a', b', hs', ha'⟩ := (hk v).1 h
    exact hv (keyOf_head (hs'.symm.trans hs) ha' ha)
  have hu : ∀ {a b}, s = a ++ b → fold a = keyOf .usebackq →
      ((s.drop 8 = [] ∨ s[8]? = some ' ') ↔ (b = [] ∨ ∃ b', b = ' ' :: b')) := by
    intro a b hs ha
    have hl : a.length = 8 := by rw [← foldLen, ha]; rfl
    subst hs
    rw [List.drop_left' hl, List.getElem?_append_right (by omega), hl]
    cases b <;> simp
  unfold forIsSpecifier
  change (if prefixI (keyOf .tokens) s = true then some SpecType.tokens
    else if prefixI (keyOf .eol) s = true then some .eol
    else if prefixI (keyOf .delims) s = true then some .delims
    else if prefixI (keyOf .skip) s = true then some .skip
    else if prefixI (keyOf .usebackq) s = true ∧ (s.drop 8 = [] ∨ s[8]? = some ' ') then some .usebackq else none) = some t ↔ _
  constructor
  · intro h
    have key : ∀ u, prefixI (keyOf u) s = true → some u = some t → u ≠ .usebackq → 
        ∃ a b, s = a ++ b ∧ fold a = keyOf t ∧ (t = .usebackq → b = [] ∨ ∃ b', b = ' ' :: b') := by
      intro u h1 h2 h3
      simp only [Option.some.injEq] at h2
      subst h2
      obtain ⟨a, b, hs, ha⟩ := (hk u).1 h1
      exact ⟨a, b, hs, ha, fun e => absurd e h3⟩
    split at h
    · next h1 => exact key _ h1 h (by decide)
    · split at h
      · next h1 => exact key _ h1 h (by decide)
      · split at h
        · next h1 => exact key _ h1 h (by decide)
        · split at h
          · next h1 => exact key _ h1 h (by decide)
          · split at h
            · next h1 =>
              simp only [Option.some.injEq] at h
              subst h
              obtain ⟨a, b, hs, ha⟩ := (hk _).1 h1.1
              exact ⟨a, b, hs, ha, fun _ => (hu hs ha).1 h1.2⟩
            · simp at h
  · rintro ⟨a, b, hs, ha, hb⟩
    have yes : prefixI (keyOf t) s = true := (hk t).2 ⟨a, b, hs, ha⟩
    have n := no hs ha
    cases t with
    | tokens => rw [if_pos yes]
    | eol => rw [if_neg (n _ (by decide)), if_pos yes]
    | delims => rw [if_neg (n _ (by decide)), if_neg (n _ (by decide)), if_pos yes]
    | skip => rw [if_neg (n _ (by decide)), if_neg (n _ (by decide)), if_neg (n _ (by decide)), if_pos yes]
    | usebackq =>
      rw [if_neg (n _ (by decide)), if_neg (n _ (by decide)), if_neg (n _ (by decide)), if_neg (n _ (by decide)),
        if_pos ⟨yes, (hu hs ha).2 (hb rfl)⟩]

theorem isSpecifier_head (s : List Char) : (forIsSpecifier s).isSome = true ↔ OptHead s := by
  rw [Option.isSome_iff_exists]
  constructor
  · rintro ⟨t, h⟩
    obtain ⟨a, b, hs, ha, hb⟩ := (forIsSpecifier_iff s t).1 h
    cases t with
    | tokens => exact .inl ⟨_, by simp [optNames, keyOf], a, b, hs, ha⟩
    | eol => exact .inl ⟨_, by simp [optNames, keyOf], a, b, hs, ha⟩
    | delims => exact .inl ⟨_, by simp [optNames, keyOf], a, b, hs, ha⟩
    | skip => exact .inl ⟨_, by simp [optNames, keyOf], a, b, hs, ha⟩
    | usebackq => exact .inr ⟨a, b, hs, ha, hb rfl⟩
  · rintro (⟨k, hk, a, b, hs, ha⟩ | ⟨a, b, hs, ha, hb⟩)
    · unfold optNames at hk
      simp only [List.mem_cons, List.not_mem_nil, or_false] at hk
      rcases hk with rfl | rfl | rfl | rfl
      · exact ⟨.delims, (forIsSpecifier_iff s _).2 ⟨a, b, hs, ha, by simp⟩⟩
      · exact ⟨.eol, (forIsSpecifier_iff s _).2 ⟨a, b, hs, ha, by simp⟩⟩
      · exact ⟨.skip, (forIsSpecifier_iff s _).2 ⟨a, b, hs, ha, by simp⟩⟩
      · exact ⟨.tokens, (forIsSpecifier_iff s _).2 ⟨a, b, hs, ha, by simp⟩⟩
    · exact ⟨.usebackq, (forIsSpecifier_iff s _).2 ⟨a, b, hs, ha, fun _ => hb⟩⟩

/-- No option begins with a space. -/
theorem optHead_space {s : List Char} : ¬ OptHead (' ' :: s) := by
  intro h
  rw [← isSpecifier_head, Option.isSome_iff_exists] at h
  obtain ⟨t, h⟩ := h
  obtain ⟨a, b, hs, ha, -⟩ := (forIsSpecifier_iff _ t).1 h
  have : (fold (' ' :: s)).head? = (keyOf t).head? := by
    rw [hs]
    unfold fold at ha ⊢
    rw [List.map_append, ha]
    cases t <;> rfl
  revert this
  cases t <;> simp [fold, keyOf] <;> decide

theorem optHead_nil : ¬ OptHead [] := by
  rw [← isSpecifier_head]
  decide

/-- The space found is the first one not followed by a space. -/
theorem nextSpace_first : ∀ {s p a : List Char}, nextSpace s = some (p, a) → a.head? ≠ some ' ' ∧
    ∀ p' a', s = p' ++ ' ' :: a' → a'.head? ≠ some ' ' → p.length ≤ p'.length := by
  intro s
  induction s with
  | nil => intro p a h; simp [nextSpace] at h
  | cons c r ih =>
    intro p a h
    rw [nextSpace] at h
    split at h
    · next h' =>
      simp only [Option.some.injEq, Prod.mk.injEq] at h
      obtain ⟨rfl, rfl⟩ := h
      exact ⟨h'.2, fun _ _ _ _ => by simp⟩
    · next h' =>
      cases hr : nextSpace r with
      | none => rw [hr] at h; simp at h
      | some x =>
        rw [hr] at h
        simp only [Option.map_some, Option.some.injEq, Prod.mk.injEq] at h
        obtain ⟨rfl, rfl⟩ := h
        have := ih (p := x.1) (a := x.2) (by rw [hr])
        refine ⟨this.1, ?_⟩
        intro p' a' he ha
        cases p' with
        | nil =>
          simp only [List.nil_append, List.cons.injEq] at he
          obtain ⟨rfl, rfl⟩ := he
          exact absurd ⟨rfl, ha⟩ h'
        | cons d p' =>
          simp only [List.cons_append, List.cons.injEq] at he
          have := this.2 p' a' he.2 ha
          simp only [List.length_cons]
          omega

theorem nextSpace_none : ∀ {s : List Char}, nextSpace s = none → ∀ p' a', s = p' ++ ' ' :: a' → a'.head? = some ' ' := by
  intro s
  induction s with
  | nil => intro _ p' a' h; simp at h
  | cons c r ih =>
    intro h p' a' he
    rw [nextSpace] at h
    split at h
    · simp at h
    · next h' =>
      cases p' with
      | nil =>
        simp only [List.nil_append, List.cons.injEq] at he
        obtain ⟨rfl, rfl⟩ := he
        exact Classical.byContradiction fun hc => h' ⟨rfl, hc⟩
      | cons d p' =>
        simp only [List.cons_append, List.cons.injEq] at he
        cases hr : nextSpace r with
        | none => exact ih hr p' a' he.2
        | some x => rw [hr] at h; simp at h

theorem nextSpace_none' {s : List Char} (h : nextSpace s = none) : ' ' ∉ s := by
  intro hm
  -- the last space is followed by no space
  obtain ⟨p, a, rfl, ha⟩ : ∃ p a, s = p ++ ' ' :: a ∧ ' ' ∉ a := by
    clear h
    induction s with
    | nil => simp at hm
    | cons c r ih =>
      by_cases hr : ' ' ∈ r
      · obtain ⟨p, a, rfl, ha⟩ := ih hr
        exact ⟨c :: p, a, rfl, ha⟩
      · refine ⟨[], r, ?_, hr⟩
        simp only [List.mem_cons] at hm
        rcases hm with h | h
        · rw [← h]; rfl
        · exact absurd h hr
  have := nextSpace_none h p a rfl
  cases a with
  | nil => simp at this
  | cons c a => simp at this; subst this; simp at ha

/-- The value ends where the next option begins. -/
theorem specEnd_next {t : List Char} (ht : OptHead t) : ∀ (w : List Char), Quiet w (' ' :: t) →
    specEnd (w ++ ' ' :: t) = (w, t) := by
  have htt : t.head? ≠ some ' ' := by
    cases t with
    | nil => simp
    | cons c t =>
      simp only [List.head?_cons, ne_eq, Option.some.injEq]
      rintro rfl
      exact optHead_space ht
  intro w
  induction hn : w.length using Nat.strongRecOn generalizing w with
  | ind n ih =>
    intro hq
    rw [specEnd]
    split
    · next h => exact absurd (by simp) (nextSpace_none' h)
    · next p a h =>
      have he := nextSpace_eq h
      have hf := nextSpace_first h
      have hle := hf.2 w t rfl htt
      obtain ⟨c, hc⟩ : ∃ c, w = p ++ c := by
        refine ⟨w.drop p.length, ?_⟩
        have := congrArg (List.take p.length) he
        rw [List.take_left' rfl, List.take_append_of_le_length hle] at this
        rw (occs := .pos [1]) [← List.take_append_drop p.length w]
        rw [this]
      rw [hc, List.append_assoc] at he
      have he := List.append_cancel_left he
      cases c with
      | nil =>
        simp only [List.nil_append, List.cons.injEq, true_and] at he
        rw [List.append_nil] at hc
        subst he hc
        rw [if_pos ((isSpecifier_head _).2 ht)]
      | cons d c =>
        simp only [List.cons_append, List.cons.injEq] at he
        obtain ⟨rfl, rfl⟩ := he
        rw [if_neg]
        · have := ih c.length (by rw [← hn, hc]; simp; omega) c rfl (fun p' s' hp => by
            have := hq (p ++ ' ' :: p') s' (by rw [hc, hp]; simp)
            exact this)
          rw [this, hc]
        · rw [isSpecifier_head]
          exact hq p c hc

theorem specEnd_last : ∀ (w : List Char), Quiet w [] → specEnd w = (w, []) := by
  intro w
  induction hn : w.length using Nat.strongRecOn generalizing w with
  | ind n ih =>
    intro hq
    rw [specEnd]
    split
    · rfl
    · next p a h =>
      have he := nextSpace_eq h
      rw [if_neg]
      · have := ih a.length (by rw [← hn, he]; simp; omega) a rfl (fun p' s' hp => by
          have := hq (p ++ ' ' :: p') s' (by rw [he, hp]; simp)
          exact this)
        rw [this, he]
      · rw [isSpecifier_head]
        have := hq p a he
        rwa [List.append_nil] at this

theorem append_space_split {k v p s : List Char} (hk : ' ' ∉ k) (h : k ++ v = p ++ ' ' :: s) : ∃ p', v = p' ++ ' ' :: s := by
  induction k generalizing p with
  | nil => exact ⟨p, h⟩
  | cons c k ih =>
    cases p with
    | nil =>
      simp only [List.cons_append, List.nil_append, List.cons.injEq] at h
      exact absurd (by rw [h.1]; simp) hk
    | cons d p =>
      simp only [List.cons_append, List.cons.injEq] at h
      exact ih (by simp at hk; exact hk.2) h.2

theorem quiet_key {k v next : List Char} (hk : ' ' ∉ k) (h : Quiet v next) : Quiet (k ++ v) next := by
  intro p s he
  obtain ⟨p', hv⟩ := append_space_split hk he
  exact h p' s hv

theorem key_no_space {k : List Char} {t : SpecType} (h : fold k = keyOf t) : ' ' ∉ k := by
  intro hm
  have : ' '.toLower ∈ fold k := List.mem_map_of_mem hm
  rw [h, show ' '.toLower = ' ' by decide] at this
  revert this
  cases t <;> simp [keyOf]

/-- The kind of an option. -/
def kindOf : FOpt → SpecType
  | .delims _ => .delims
  | .eol _ => .eol
  | .skip _ => .skip
  | .tokens _ => .tokens
  | .usebackq => .usebackq

theorem written_key {o : FOpt} {k v : List Char} (h : OptWritten o k v) : fold k = keyOf (kindOf o) := by
  cases h <;> assumption

theorem specSkip_length (t : SpecType) : specSkip t = (keyOf t).length := by cases t <;> rfl

theorem nextSpace_spaces {k b t : List Char} (hk : ' ' ∉ k) (hb : ∀ c ∈ b, c = ' ') (ht : t.head? ≠ some ' ') :
    nextSpace (k ++ b ++ ' ' :: t) = some (k ++ b, t) := by
  induction k with
  | nil =>
    rw [List.nil_append]
    induction b with
    | nil => simp [nextSpace, ht]
    | cons c b ih =>
      rw [List.cons_append, nextSpace, if_neg, ih (fun c hc => hb c (by simp [hc]))]
      · rfl
      · cases b with
        | nil => simp
        | cons d b => simp [hb d (by simp)]
  | cons c k ih =>
    simp only [List.mem_cons, not_or] at hk
    rw [List.cons_append, List.cons_append, nextSpace, if_neg (fun h => hk.1 h.1.symm), ih hk.2]
    rfl

theorem optsText_head {os : List FOpt} {t : List Char} (h : OptsText os t) (ho : os ≠ []) : OptHead t ∧ t ≠ [] := by
  have key : ∀ {o k v x}, OptWritten o k v → (x = [] ∨ ∃ x', x = ' ' :: x') → OptHead (k ++ v ++ x) ∧ k ++ v ++ x ≠ [] := by
    intro o k v x hw hx
    have hk := written_key hw
    refine ⟨?_, ?_⟩
    · rw [← isSpecifier_head, Option.isSome_iff_exists]
      refine ⟨kindOf o, (forIsSpecifier_iff _ _).2 ⟨k, v ++ x, by simp, hk, ?_⟩⟩
      intro hu
      cases hw with
      | usebackq _ hb =>
        cases v with
        | nil => simpa using hx
        | cons c v => exact .inr ⟨v ++ x, by rw [hb c (by simp)]; rfl⟩
      | _ => simp [kindOf] at hu
    · intro h
      have : k = [] := by
        cases k with
        | nil => rfl
        | cons => simp at h
      subst this
      revert hk
      cases kindOf o <;> simp [fold, keyOf]
  cases h with
  | nil => exact absurd rfl ho
  | @last o k v hw _ =>
    have := key hw (x := []) (.inl rfl)
    simpa using this
  | cons hw _ _ _ => exact key hw (.inr ⟨_, rfl⟩)

/-- `pBat_ForGetSpecifier` reads the first option; the value is what has been written (for `usebackq` it has none). -/
theorem getSpecifier_cons {o : FOpt} {k v t : List Char} (hw : OptWritten o k v) (hq : Quiet v (' ' :: t)) (ht : OptHead t) :
    ∃ x, forGetSpecifier (k ++ v ++ ' ' :: t) = some (some (kindOf o), x, t) ∧ x.drop (specSkip (kindOf o)) = v := by
  have hk := written_key hw
  have hlen : specSkip (kindOf o) = k.length := by rw [specSkip_length, ← hk, foldLen]
  have hns := key_no_space hk
  have htt : t.head? ≠ some ' ' := by
    cases t with
    | nil => simp
    | cons c t =>
      simp only [List.head?_cons, ne_eq, Option.some.injEq]
      rintro rfl
      exact optHead_space ht
  have hspec : forIsSpecifier (k ++ v ++ ' ' :: t) = some (kindOf o) := by
    refine (forIsSpecifier_iff _ _).2 ⟨k, v ++ ' ' :: t, by simp, hk, ?_⟩
    intro hu
    cases hw with
    | usebackq _ hb =>
      cases v with
      | nil => exact .inr ⟨t, rfl⟩
      | cons c v => exact .inr ⟨v ++ ' ' :: t, by rw [hb c (by simp)]; rfl⟩
    | _ => simp [kindOf] at hu
  refine ⟨k ++ v, ?_, by rw [hlen, List.drop_left]⟩
  unfold forGetSpecifier
  rw [if_neg (by simp), hspec]
  cases hw with
  | usebackq _ hb => simp only [kindOf]; rw [nextSpace_spaces hns hb htt]; rfl
  | _ => simp only [kindOf]; rw [specEnd_next ht _ (quiet_key hns hq)]

theorem getSpecifier_last {o : FOpt} {k v : List Char} (hw : OptWritten o k v) (hq : Quiet v []) :
    ∃ x, forGetSpecifier (k ++ v) = some (some (kindOf o), x, []) ∧
      (o ≠ .usebackq → x.drop (specSkip (kindOf o)) = v) := by
  have hk := written_key hw
  have hlen : specSkip (kindOf o) = k.length := by rw [specSkip_length, ← hk, foldLen]
  have hns := key_no_space hk
  have hne : k ++ v ≠ [] := (by
    have := (optsText_head (.last hw hq) (by simp)).2
    exact this)
  have hspec : forIsSpecifier (k ++ v) = some (kindOf o) := by
    refine (forIsSpecifier_iff _ _).2 ⟨k, v, rfl, hk, ?_⟩
    intro hu
    cases hw with
    | usebackq _ hb =>
      cases v with
      | nil => exact .inl rfl
      | cons c v => exact .inr ⟨v, by rw [hb c (by simp)]⟩
    | _ => simp [kindOf] at hu
  unfold forGetSpecifier
  rw [if_neg hne, hspec]
  cases hw with
  | usebackq _ hb =>
    simp only [kindOf]
    cases hv : nextSpace (k ++ v) with
    | none => exact ⟨k ++ v, rfl, fun h => absurd rfl h⟩
    | some y =>
      obtain ⟨p, a⟩ := y
      refine ⟨p, ?_, fun h => absurd rfl h⟩
      simp only [Option.getD_some]
      have he := nextSpace_eq hv
      have hf := (nextSpace_first hv).1
      obtain ⟨p', hp⟩ := append_space_split hns he
      cases a with
      | nil => rfl
      | cons c a => exact absurd (by rw [hb c (by rw [hp]; simp)]; rfl) hf
  | _ =>
    simp only [kindOf]
    exact ⟨_, by rw [specEnd_last _ (quiet_key hns hq)], fun _ => by
      have := hlen; simp only [kindOf] at this; rw [this, List.drop_left]⟩

/-- What an option changes. -/
def optStep (o : ForOpts) : FOpt → ForOpts
  | .delims d => { o with delims := d, eol := if d.contains ';' ∧ o.eol = [';'] then [] else o.eol }
  | .eol e => { o with eol := e }
  | .skip n => { o with skip := n }
  | .tokens its => { o with
      table := orWords o.table 0 (((select (some 0) its).getD []).map selWord), count := ((select (some 0) its).getD []).length }
  | .usebackq => { o with usebackq := true }

/-- The values of an option can be kept. -/
def Fits : FOpt → Prop
  | .delims d => d.length ≤ 4095
  | .eol e => e.length ≤ 4095
  | .skip n => n < 2 ^ 31
  | .tokens its => (∀ it ∈ its, ItemOk it) ∧ ∃ sels, select (some 0) its = some sels ∧ (∀ s ∈ sels, SelOk s) ∧ sels.length ≤ 96
  | .usebackq => True

theorem setOption_step {x : FOpt} {k v w : List Char} (hw : OptWritten x k v) (hx : x ≠ .usebackq → w = v) (hf : Fits x)
    (o : ForOpts) : forSetOption o (kindOf x) w = .ok (some (optStep o x)) := by
  cases hw with
  | delims _ =>
    rw [hx (by simp)]
    simp only [forSetOption, kindOf, optStep]
    rw [List.take_of_length_le hf]
  | eol _ =>
    rw [hx (by simp)]
    simp only [forSetOption, kindOf, optStep]
    rw [List.take_of_length_le hf]
  | @skip k t b n _ hn hb =>
    rw [hx (by simp)]
    simp only [forSetOption, kindOf, optStep]
    have hf' : n < 2 ^ 31 := hf
    rw [strtol0_number hn b, longToInt_id (by omega) (by omega)]
    · intro c hc
      have : c = ' ' := hb c (List.mem_of_mem_head? hc)
      subst this
      decide
    · omega
    · omega
  | @tokens k t its _ hi =>
    rw [hx (by simp)]
    obtain ⟨h1, sels, h2, h3, h4⟩ := hf
    obtain ⟨st, e1, e2, e3⟩ := tok_items hi (some 0) sels { table := o.table } h1 h2 h3 ⟨rfl, rfl, rfl, by simp, by
      intro l' hl; simp at hl; subst hl; rfl⟩ (by simpa using h4)
    simp only [forSetOption, kindOf, optStep]
    rw [e1, h2]
    simp only [Res.ok_bind, Res.pure_eq, Option.getD_some]
    rw [e2, e3]
    simp
  | usebackq _ _ => rfl

/-- The options of a parameter are read one after the other. -/
theorem makeInfo_steps {os : List FOpt} {t : List Char} (h : OptsText os t) : (∀ x ∈ os, Fits x) → ∀ o : ForOpts,
    forMakeInfo o t = .ok (some (os.foldl optStep o)) := by
  induction h with
  | nil =>
    intro _ o
    rw [forMakeInfo]
    split
    · rfl
    · next h => simp [forGetSpecifier] at h
    · next h => simp [forGetSpecifier] at h
  | @last x k v hw hq =>
    intro hf o
    obtain ⟨w, h1, h2⟩ := getSpecifier_last hw hq
    rw [forMakeInfo]
    split
    · next h => rw [h1] at h; simp at h
    · next h => rw [h1] at h; simp at h
    · next t' x' r' h =>
      rw [h1] at h
      simp only [Option.some.injEq, Prod.mk.injEq] at h
      obtain ⟨rfl, rfl, rfl⟩ := h
      rw [setOption_step hw h2 (hf _ (by simp))]
      simp only
      rw [forMakeInfo]
      split
      · rfl
      · next h => simp [forGetSpecifier] at h
      · next h => simp [forGetSpecifier] at h
  | @cons x os k v t hw hq ht ho ih =>
    intro hf o
    obtain ⟨w, h1, h2⟩ := getSpecifier_cons hw hq (optsText_head ht ho).1
    rw [forMakeInfo]
    split
    · next h => rw [h1] at h; simp at h
    · next h => rw [h1] at h; simp at h
    · next t' x' r' h =>
      rw [h1] at h
      simp only [Option.some.injEq, Prod.mk.injEq] at h
      obtain ⟨rfl, rfl, rfl⟩ := h
      rw [setOption_step hw (fun _ => h2) (hf _ (by simp))]
      simp only
      rw [ih (fun x hx => hf x (by simp [hx]))]
      rfl

theorem allOptions_steps {os : List FOpt} {ps : List (List Char)} (h : OptParams os ps) : (∀ x ∈ os, Fits x) → ∀ o : ForOpts,
    forAllOptions o ps = .ok (some (os.foldl optStep o)) := by
  induction h with
  | nil => intro _ o; rfl
  | @cons a b p ps ha _ ih =>
    intro hf o
    rw [forAllOptions, makeInfo_steps ha (fun x hx => hf x (by simp [hx]))]
    simp only
    rw [ih (fun x hx => hf x (by simp [hx])), List.foldl_append]

end PBat
