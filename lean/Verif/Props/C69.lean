import Verif.Lemmas.Def
import Verif.Props.C21
import Verif.Props.C38
/-
C69: DEF.
-/
namespace PBat
open Spec

/-- The table holds these commands. -/
structure TableRep (t : CmdTree CmdBody) (T : List (CmdEntry CmdBody)) : Prop where
  sorted : t.Sorted
  same : ∀ e, e ∈ t.entries ↔ e ∈ T
  distinct : Distinct T
  registered : ∀ e ∈ T, Registered e
  clear : Unmixed T
  plain : ∀ y ∈ T, ∀ c ∈ (fold y.name).tail, '/'.toNat < c.toNat ∧ c ≠ ';'
  enough : 3 ≤ T.length

theorem rep_lookup {t : CmdTree CmdBody} {T : List (CmdEntry CmdBody)} (h : TableRep t T) {e : CmdEntry CmdBody} (he : e ∈ T)
    {w rest : List Char} (hc : CallsBy w rest e) : t.lookup (w ++ rest) = .ok (some e) :=
  lookup_call h.sorted (fun x hx => h.registered x ((h.same x).1 hx))
    (fun x hx y hy => h.clear x ((h.same x).1 hx) y ((h.same y).1 hy)) ((h.same e).2 he) hc

theorem rep_none {t : CmdTree CmdBody} {T : List (CmdEntry CmdBody)} (h : TableRep t T) {line : List Char} (hn : ∀ e ∈ T, ¬ Calls line e) :
    t.lookup line = .ok none := by
  obtain ⟨o, ho, hp⟩ := lookup_sound line t fun x hx => h.registered x ((h.same x).1 hx)
  cases o with
  | none => exact ho
  | some x => exact absurd (hp x rfl).2 (hn x ((h.same x).1 (hp x rfl).1))

theorem defName_low {n : List Char} (hn : DefName n) : ∀ c ∈ fold n, '/'.toNat < c.toNat ∧ c ≠ ';' := by
  intro c hc
  obtain ⟨d, hd, rfl⟩ := List.mem_map.1 hc
  have h := hn.2.2 d hd
  simp only [List.mem_cons, List.not_mem_nil, or_false, not_or] at h
  by_cases hu : d.isUpper = true
  · have h1 : d.toNat ≤ 90 ∧ 65 ≤ d.toNat := by
      simp only [Char.isUpper, Bool.and_eq_true, decide_eq_true_eq] at hu
      exact ⟨hu.2, hu.1⟩
    have h2 : ∀ k, k ≤ 90 → 65 ≤ k → '/'.toNat < (Char.ofNat k).toLower.toNat ∧ (Char.ofNat k).toLower ≠ ';' := by decide
    have := h2 d.toNat h1.1 h1.2
    rwa [Char.ofNat_toNat] at this
  · rw [Char.toLower, dif_neg]
    · exact ⟨h.1, h.2.1⟩
    · intro hh
      apply hu
      simp only [Char.isUpper, Bool.and_eq_true, decide_eq_true_eq]
      exact hh

/-- The name of a definition is found exactly when it is known. -/
theorem def_found {t : CmdTree CmdBody} {T : List (CmdEntry CmdBody)} (h : TableRep t T) {n : List Char} {force : Bool} (hn : DefName n)
    (hd : Definable T force n) : ∃ o, t.lookup n = .ok o ∧ (o.isSome = true ↔ Known T n) := by
  by_cases hk : Known T n
  · obtain ⟨x, hx, hxn⟩ := hk
    have := rep_lookup h hx (w := n) (rest := []) ⟨hxn.symm, .inr ⟨(by intro c hc; cases hc), by simp⟩⟩
    rw [List.append_nil] at this
    exact ⟨_, this, by simp; exact ⟨x, hx, hxn⟩⟩
  · refine ⟨none, rep_none h ?_, by simpa using hk⟩
    rintro e he ⟨w, rest, rfl, hw, hend⟩
    have hf : fold (w ++ rest) = fold e.name ++ fold rest := by rw [fold_append', hw]
    cases rest with
    | nil => exact hk ⟨e, he, by rw [hf]; simp [fold]⟩
    | cons c s =>
      have h1 := hd e he c.toLower (fold s) (by rw [hf]; rfl)
      have h2 := hend.resolve_left h1.1 c rfl
      have h3 := hn.2.2 c (by simp)
      have hsmall : ∀ d ∈ " ,;\n\t/".toList, ¬ ('/'.toNat < d.toNat ∧ d ∉ [';', '=', '^']) := by decide
      exact hsmall c h2 h3

/-- A definition keeps the table well formed, and makes it the table of the specification. -/
theorem def_step (lc : LibC) {t : CmdTree CmdBody} {T : List (CmdEntry CmdBody)} (h : TableRep t T) {n : List Char} {force : Bool}
    (hn : DefName n) (hd : Definable T force n) (body : List Char) :
    ∃ t' ok, defCmd lc force n (.text body) t = .ok (t', ok) ∧ TableRep t' (defined T force n body) ∧
      (ok = false ↔ Known T n ∧ force = false) := by
  obtain ⟨o, ho, hiff⟩ := def_found h hn hd
  have hkt : Known t.entries n ↔ Known T n := by
    constructor <;> rintro ⟨x, hx, hxn⟩
    · exact ⟨x, (h.same x).1 hx, hxn⟩
    · exact ⟨x, (h.same x).2 hx, hxn⟩
  unfold defCmd
  rw [ho]
  simp only [Res.ok_bind]
  by_cases hk : Known T n
  · rw [if_pos (hiff.2 hk)]
    cases force with
    | false =>
      refine ⟨t, false, rfl, ?_, by simp [hk]⟩
      unfold defined
      rw [if_pos hk, if_neg (by simp)]
      exact h
    | true =>
      rw [if_pos rfl]
      have hp : ∀ x ∈ t.entries, ∀ c s, fold n ≠ fold x.name ++ c :: s := fun x hx c s hcs =>
        (hd x ((h.same x).1 hx) c s hcs).2 rfl hk
      obtain ⟨t', ht', hent⟩ := replace_spec (e := ⟨n, n.length, .text body⟩) h.sorted (hkt.2 hk) hp
      refine ⟨t', true, by rw [ht']; rfl, ?_, by simp⟩
      have hdef : defined T true n body = T.map (renew ⟨n, n.length, .text body⟩) := by
        unfold defined
        rw [if_pos hk, if_pos rfl]
        rfl
      rw [hdef]
      refine ⟨sorted_replace h.sorted ht', ?_, ?_, ?_, ?_, ?_, ?_⟩
      · intro e
        rw [hent]
        simp only [List.mem_map]
        constructor
        · rintro ⟨x, hx, rfl⟩; exact ⟨x, (h.same x).1 hx, rfl⟩
        · rintro ⟨x, hx, rfl⟩; exact ⟨x, (h.same x).2 hx, rfl⟩
      · unfold Distinct
        rw [List.pairwise_map]
        refine h.distinct.imp ?_
        intro a b hab
        rw [renew_name, renew_name]
        exact hab
      · intro e he
        obtain ⟨x, hx, rfl⟩ := List.mem_map.1 he
        unfold renew
        split
        · next hh => exact .inr (fold_length hh).symm
        · exact h.registered x hx
      · intro x hx y hy c s hcs
        obtain ⟨x, hx', rfl⟩ := List.mem_map.1 hx
        obtain ⟨y, hy', rfl⟩ := List.mem_map.1 hy
        rw [renew_name, renew_name] at hcs
        have := h.clear x hx' y hy' c s hcs
        refine ⟨?_, this.2⟩
        unfold renew
        split
        · have := List.length_pos_iff.2 hn.1
          simp only
          omega
        · exact this.1
      · intro y hy
        obtain ⟨y, hy', rfl⟩ := List.mem_map.1 hy
        rw [renew_name]
        exact h.plain y hy'
      · rw [List.length_map]; exact h.enough
  · rw [if_neg (by rw [hiff]; exact hk)]
    refine ⟨_, true, rfl, ?_, by simp [hk]⟩
    have hne : ∀ x ∈ t.entries, fold x.name ≠ fold n := fun x hx hh => hk (hkt.1 ⟨x, hx, hh⟩)
    have hdef : defined T force n body = T ++ [⟨n, n.length, .text body⟩] := by
      unfold defined
      rw [if_neg hk]
    have hsame : ∀ e, e ∈ (t.add ⟨n, n.length, .text body⟩).entries ↔ e ∈ T ++ [(⟨n, n.length, .text body⟩ : CmdEntry CmdBody)] := by
      intro e
      rw [List.mem_append, List.mem_singleton, ← h.same]
      constructor
      · intro he
        rcases mem_add_of he with h | h
        · exact .inr h
        · exact .inl h
      · rintro (he | rfl)
        · exact mem_add he
        · exact mem_add_new hne
    have hdist : Distinct (T ++ [(⟨n, n.length, .text body⟩ : CmdEntry CmdBody)]) := by
      refine List.pairwise_append.2 ⟨h.distinct, List.pairwise_singleton _ _, ?_⟩
      intro a ha b hb hab
      rw [List.mem_singleton] at hb
      subst hb
      exact hk ⟨a, ha, hab⟩
    have hs := sorted_add (e := (⟨n, n.length, .text body⟩ : CmdEntry CmdBody)) h.sorted
    have hlen : (t.add ⟨n, n.length, .text body⟩).entries.length = T.length + 1 := by
      rw [((List.perm_ext_iff_of_nodup (distinct_nodup (sorted_nodup hs)) (distinct_nodup hdist)).2 hsame).length_eq]
      simp
    have h3 := h.enough
    rw [hdef]
    refine ⟨mapInfo_sorted lc _, ?_, hdist, ?_, ?_, ?_, ?_⟩
    · intro e
      unfold reMap
      rw [mapInfo_mem lc _ (sorted_nodup hs) ⟨by omega, by omega⟩]
      exact hsame e
    · intro e he
      rcases List.mem_append.1 he with he | he
      · exact h.registered e he
      · rw [List.mem_singleton] at he
        subst he
        exact .inr rfl
    · intro x hx y hy c s hcs
      have hlow := defName_low hn
      have hpos := List.length_pos_iff.2 hn.1
      rcases List.mem_append.1 hx with hx | hx
      · rcases List.mem_append.1 hy with hy | hy
        · exact h.clear x hx y hy c s hcs
        · rw [List.mem_singleton] at hy
          subst hy
          exact ⟨(hd x hx c s hcs).1, hlow c (by rw [hcs]; simp)⟩
      · rw [List.mem_singleton] at hx
        subst hx
        rcases List.mem_append.1 hy with hy | hy
        · refine ⟨by simp only; omega, h.plain y hy c ?_⟩
          rw [hcs]
          cases hf : fold n with
          | nil => simp [fold] at hf; exact absurd hf hn.1
          | cons a l => simp
        · rw [List.mem_singleton] at hy
          subst hy
          simp at hcs
    · intro y hy c hc
      rcases List.mem_append.1 hy with hy | hy
      · exact h.plain y hy c hc
      · rw [List.mem_singleton] at hy
        subst hy
        exact defName_low hn c (List.mem_of_mem_tail hc)
    · simp only [List.length_append, List.length_singleton]; omega

/-- The interpreter starts with a well formed table. -/
theorem rep_start (lc : LibC) : TableRep (mapInfo lc startTable) startTable := by
  have hd : Distinct startTable := by unfold Distinct; decide +kernel
  refine ⟨mapInfo_sorted lc _, mapInfo_mem lc _ hd ⟨by decide, by decide⟩, hd, ?_, ?_, ?_, by decide⟩
  · have h : startTable.all (fun e => e.limit == 0 || e.limit == e.name.length) = true := by decide +kernel
    intro x hx
    have := List.all_eq_true.1 h x hx
    simpa [Registered] using this
  · have h : startTable.all (fun x => startTable.all (fun y => !(fold x.name).isPrefixOf (fold y.name) ||
        (fold y.name == fold x.name || (x.limit != 0 && match (fold y.name)[x.name.length]? with
          | none => true
          | some c => decide ('/'.toNat < c.toNat) && c != ';')))) = true := by decide +kernel
    intro x hx y hy c s hcs
    have hl : (fold x.name).length = x.name.length := by simp [fold]
    have := List.all_eq_true.1 (List.all_eq_true.1 h x hx) y hy
    have h1 : (fold x.name).isPrefixOf (fold y.name) = true := by
      rw [List.isPrefixOf_iff_prefix, hcs]; exact List.prefix_append _ _
    have h2 : (fold y.name)[x.name.length]? = some c := by
      rw [hcs, ← hl, List.getElem?_append_right (Nat.le_refl _), Nat.sub_self]; rfl
    have h3 : (fold y.name == fold x.name) = false := by rw [hcs]; simp
    rw [h1, h2, h3] at this
    simp only [Bool.not_true, Bool.false_or, Bool.and_eq_true, bne_iff_ne, ne_eq, decide_eq_true_eq] at this
    exact ⟨this.1, this.2.1, this.2.2⟩
  · have h : startTable.all (fun y => (fold y.name).tail.all fun c => decide ('/'.toNat < c.toNat) && c != ';') = true := by decide +kernel
    intro y hy c hc
    have := List.all_eq_true.1 (List.all_eq_true.1 h y hy) c hc
    simpa using this

/-- The commands run one after the other, the variables (`ex`) being any at each of them: each must return its status and write nothing. -/
def runDefs (lc : LibC) (ex : Nat → List Char → Res (List Char)) (help : List Char) : List (List Char × Nat) → CmdTree CmdBody → Res (Option (CmdTree CmdBody))
  | [], t => .ok (some t)
  | (line, st) :: ls, t => do
    let o ← cmdDef lc (ex ls.length) help line t
    if o.status = st ∧ o.out = [] then runDefs lc ex help ls o.table else .ok none

theorem runDefs_rep (lc : LibC) {ex : Nat → List Char → Res (List Char)} (hk : ∀ i, Keeps (ex i)) (help : List Char) {T T' : List (CmdEntry CmdBody)}
    {ls : List (List Char × Nat)} (hh : DefHistory T ls T') {t : CmdTree CmdBody} (h : TableRep t T) :
    ∃ t', runDefs lc ex help ls t = .ok (some t') ∧ TableRep t' T' := by
  induction hh generalizing t with
  | nil => exact ⟨t, rfl, h⟩
  | @cons T line force n body ls T' hl hd _ ih =>
    obtain ⟨t1, ok, h1, h2, h3⟩ := def_step lc h (defSet_line hl) hd body
    obtain ⟨t', h4, h5⟩ := ih h2
    refine ⟨t', ?_, h5⟩
    have hscan := defScan_line (hk ls.length) hl [] (by simp) false
    rw [runDefs, cmdDef, ← List.nil_append line, hscan]
    simp only [Res.ok_bind, Bool.false_or, Bool.false_eq_true, if_false]
    rw [defSet_eq lc force (defSet_line hl), h1]
    simp only [Res.ok_bind]
    rw [if_pos, h4]
    refine ⟨?_, trivial⟩
    by_cases hc : Known T n ∧ force = false
    · rw [if_pos hc, h3.2 hc, hc.2]; rfl
    · rw [if_neg hc]
      have : ok = true := by
        cases ok with
        | true => rfl
        | false => exact absurd (h3.1 rfl) hc
      rw [this]; rfl

/-- The lists of definitions. -/
theorem listDefs_eq (p : List Char) (t : CmdTree CmdBody) : listDefs p t = (t.entries.map (defItem p)).flatten := by
  induction t with
  | leaf => rfl
  | node e l r ihl ihr => simp [listDefs, CmdTree.entries, ihl, ihr]

/-- The definitions the name of which begins with `p`, as names and texts. -/
def defsOf (p : List Char) (l : List (CmdEntry CmdBody)) : List (List Char × List Char) :=
  l.filterMap fun e => match e.info with
    | .proc _ => none
    | .text s => if fold p <+: fold e.name then some (e.name, s) else none

theorem defItems_eq (p : List Char) (l : List (CmdEntry CmdBody)) :
    (l.map (defItem p)).flatten = ((defsOf p l).map fun x => x.1 ++ '=' :: x.2 ++ ['\n']).flatten := by
  induction l with
  | nil => rfl
  | cons e l ih =>
    rw [List.map_cons, List.flatten_cons, ih, show defsOf p (e :: l) = _ from List.filterMap_cons, defItem]
    cases e.info with
    | proc q => rfl
    | text s =>
      have hc : (p = [] ∨ prefixI p e.name = true) ↔ fold p <+: fold e.name := by
        rw [prefixI_iff]
        constructor
        · rintro (rfl | h)
          · exact List.nil_prefix
          · exact h
        · exact .inr
      simp only
      by_cases h : fold p <+: fold e.name
      · rw [if_pos (hc.2 h), if_pos h]; rfl
      · rw [if_neg (fun hh => h (hc.1 hh)), if_neg h]; rfl

theorem defsOf_once (p : List Char) {l : List (CmdEntry CmdBody)} (h : Distinct l) : ((defsOf p l).map fun x => fold x.1).Nodup := by
  unfold defsOf List.Nodup
  rw [List.pairwise_map, List.pairwise_filterMap]
  refine h.imp ?_
  intro a b hab x hx y hy
  have key : ∀ (e : CmdEntry CmdBody) (x : List Char × List Char), (match e.info with
    | .proc _ => none
    | .text s => if fold p <+: fold e.name then some (e.name, s) else none) = some x → x.1 = e.name := by
    intro e x hx
    cases hi : e.info with
    | proc q => rw [hi] at hx; cases hx
    | text s =>
      rw [hi] at hx
      simp only at hx
      split at hx
      · cases hx; rfl
      · cases hx
  rw [key a x hx, key b y hy]
  exact hab

theorem mem_defsOf (p : List Char) (l : List (CmdEntry CmdBody)) (n s : List Char) :
    (n, s) ∈ defsOf p l ↔ ∃ e ∈ l, e.name = n ∧ e.info = .text s ∧ fold p <+: fold n := by
  unfold defsOf
  rw [List.mem_filterMap]
  constructor
  · rintro ⟨e, he, h⟩
    refine ⟨e, he, ?_⟩
    cases hi : e.info with
    | proc q => rw [hi] at h; cases h
    | text s' =>
      rw [hi] at h
      simp only at h
      split at h
      · next hp => cases h; exact ⟨rfl, rfl, hp⟩
      · cases h
  · rintro ⟨e, he, rfl, hi, hp⟩
    exact ⟨e, he, by rw [hi]; simp only; rw [if_pos hp]⟩

/-! ### The property -/

/-- After any sequence of DEF commands, each succeeds or refuses as it should, writing nothing; then every line that calls a command
by its name finds the last definition of this name, and a line that calls none is a program.  The text of a definition is any text.
Partial: names as in `Definable` (see the violations), lines without semicolon right after the name. -/
theorem C69_history_partial (lc : LibC) (c : Nat → Ctx) (hv : ∀ i n, ∃ v, (c i).getv n = .ok v) (help : List Char)
    (ls : List (List Char × Nat)) (T : List (CmdEntry CmdBody)) (hh : DefHistory startTable ls T) :
    ∃ t, runDefs lc (fun i => (c i).ex) help ls (mapInfo lc startTable) = .ok (some t) ∧
      (∀ e ∈ T, ∀ w rest, CallsBy w rest e → t.lookup (w ++ rest) = .ok (some e)) ∧
      (∀ line, (∀ e ∈ T, ¬ Calls line e) → t.lookup line = .ok none) := by
  obtain ⟨t, h1, h2⟩ := runDefs_rep lc (fun i => delayedExpand_keeps (c i).delayed (c i).loops (c i).mods (c i).getv (hv i)) help hh
    (rep_start lc)
  exact ⟨t, h1, fun e he w rest hc => rep_lookup h2 he hc, fun line hn => rep_none h2 hn⟩

/-- What a definition runs: its text, with `$1` to `$9` and `$*` replaced by the parameters.  Partial: the conditions of
`C38_expand_partial` on the dollars. -/
theorem C69_runs_partial (lc : LibC) (c : Nat → Ctx) (hv : ∀ i n, ∃ v, (c i).getv n = .ok v) (help : List Char)
    (ls : List (List Char × Nat)) (T : List (CmdEntry CmdBody)) (hh : DefHistory startTable ls T) (c' : Ctx)
    (e : CmdEntry CmdBody) (he : e ∈ T) (body : List Char) (hbody : e.info = .text body) (line w rest : List Char) (as : List (List Char))
    (hl : skipAllBlanks line = w ++ rest) (hc : CallsBy w rest e) (hlim : e.limit ≠ 0) (has : allParams stdDelims c'.ex rest = .ok as)
    (hb : Undoubled body) (hcol : ¬ ['$', ':'] <:+: body) (hd : '$' ∉ rest) (ha : ∀ a ∈ as, '$' ∉ a) :
    ∃ t, runDefs lc (fun i => (c i).ex) help ls (mapInfo lc startTable) = .ok (some t) ∧
      runTarget c'.ex line t = .ok (.again (macroText (rest.dropWhile (fun c => decide (Blank c))) as body)) := by
  obtain ⟨t, h1, h2⟩ := runDefs_rep lc (fun i => delayedExpand_keeps (c i).delayed (c i).loops (c i).mods (c i).getv (hv i)) help hh
    (rep_start lc)
  refine ⟨t, h1, ?_⟩
  unfold runTarget
  simp only [hl]
  rw [rep_lookup h2 he hc]
  simp only [Res.ok_bind, hbody]
  have hlen : e.limit = w.length := by
    have := fold_length hc.1
    rcases h2.registered e he with h | h <;> omega
  rw [hlen, List.drop_left, C38_expand_partial c'.ex rest body as has hb hcol hd ha]
  rfl

/-- `DEF /l` lists the definitions, and nothing else, each once; `DEF /l name` those the name of which begins with `name`, in any case. -/
theorem C69_list (lc : LibC) (c : Nat → Ctx) (hv : ∀ i n, ∃ v, (c i).getv n = .ok v) (help : List Char)
    (ls : List (List Char × Nat)) (T : List (CmdEntry CmdBody)) (hh : DefHistory startTable ls T) (c' : Ctx)
    (hv' : ∀ n, ∃ v, c'.getv n = .ok v) (w l p : List Char) (hw : ∀ x ∈ w, Blank x) (hl : fold l = "/l".toList)
    (hp : p = [] ∨ ∃ b u n, p = b :: (u ++ n) ∧ Blank b ∧ (∀ x ∈ u, Blank x) ∧ DefName n) :
    ∃ (t : CmdTree CmdBody) (defs : List (List Char × List Char)), runDefs lc (fun i => (c i).ex) help ls (mapInfo lc startTable) = .ok (some t) ∧
      cmdDef lc c'.ex help (w ++ (l ++ p)) t = .ok ⟨t, (defs.map fun x : List Char × List Char => x.1 ++ '=' :: x.2 ++ ['\n']).flatten, 0⟩ ∧
      (defs.map fun x => fold x.1).Nodup ∧
      ∀ n s, (n, s) ∈ defs ↔ ∃ e ∈ T, e.name = n ∧ e.info = .text s ∧ fold (p.dropWhile fun c => decide (Blank c)) <+: fold n := by
  obtain ⟨t, h1, h2⟩ := runDefs_rep lc (fun i => delayedExpand_keeps (c i).delayed (c i).loops (c i).mods (c i).getv (hv i)) help hh
    (rep_start lc)
  refine ⟨t, defsOf (p.dropWhile fun c => decide (Blank c)) t.entries, h1, ?_, defsOf_once _ (sorted_nodup h2.sorted), ?_⟩
  · have hk : Keeps c'.ex := delayedExpand_keeps c'.delayed c'.loops c'.mods c'.getv hv'
    have hs : defScan c'.ex false false (w ++ (l ++ p)) = .ok (.rest false true (p.dropWhile fun c => decide (Blank c))) := by
      rw [defScan_list hk hw hl (by rcases hp with rfl | ⟨b, u, n, rfl, hb, -⟩; exact .inl rfl; exact .inr ⟨b, _, rfl, hb⟩)]
      rcases hp with rfl | ⟨b, u, n, rfl, hb, hu, hn⟩
      · rw [defScan, nextParam_nil _ _ _ rfl]; rfl
      · have h3 := defScan_name hk (w := b :: u) (n := n) (fun x hx => by
          rcases List.mem_cons.1 hx with rfl | hx
          · exact hb
          · exact hu x hx) hn [] false true
        rw [List.append_nil] at h3
        rw [← List.cons_append, h3, List.dropWhile_append_of_pos (by simpa using ⟨hb, hu⟩)]
        cases n with
        | nil => exact absurd rfl hn.1
        | cons d n =>
          rw [List.dropWhile_cons_of_neg]
          simpa using (defName_ordinary hn).1
    rw [cmdDef, hs]
    simp only [Res.ok_bind, if_true]
    rw [listDefs_eq, defItems_eq]
  · intro n s
    rw [mem_defsOf]
    simp only [h2.same]

/-- Without equal sign nothing is defined, and it is an error. -/
theorem C69_no_equal (lc : LibC) (c : Ctx) (hv : ∀ n, ∃ v, c.getv n = .ok v) (help w n : List Char) (t : CmdTree CmdBody)
    (hw : ∀ x ∈ w, Blank x) (hn : DefName n) : cmdDef lc c.ex help (w ++ n) t = .ok ⟨t, [], 4⟩ := by
  have h := defScan_name (delayedExpand_keeps c.delayed c.loops c.mods c.getv hv) hw hn [] false false
  rw [List.append_nil] at h
  rw [cmdDef, show c.ex = delayedExpand c.delayed c.loops c.mods c.getv from rfl, h]
  simp only [Res.ok_bind, Bool.false_eq_true, if_false]
  rw [defSet, searchTok_absent]
  intro d hd
  have := (hn.2.2 d hd).2
  simp only [List.mem_cons, List.not_mem_nil, or_false, not_or] at this
  simp [this]

/-! ### Violations -/

/-- A name that begins with the name of a command that takes what follows its name (ECHO) cannot be defined, after any history that
keeps this command. -/
theorem C69_echo (lc : LibC) (c : Nat → Ctx) (hv : ∀ i n, ∃ v, (c i).getv n = .ok v) (help : List Char)
    (ls : List (List Char × Nat)) (T : List (CmdEntry CmdBody)) (hh : DefHistory startTable ls T) (c' : Ctx)
    (hv' : ∀ n, ∃ v, c'.getv n = .ok v) (e : CmdEntry CmdBody) (he : e ∈ T) (h0 : e.limit = 0) (line n body s : List Char)
    (hl : DefLine line false n body) (hn : fold n = fold e.name ++ s) :
    ∃ t, runDefs lc (fun i => (c i).ex) help ls (mapInfo lc startTable) = .ok (some t) ∧
      cmdDef lc c'.ex help line t = .ok ⟨t, [], 37⟩ := by
  obtain ⟨t, h1, h2⟩ := runDefs_rep lc (fun i => delayedExpand_keeps (c i).delayed (c i).loops (c i).mods (c i).getv (hv i)) help hh
    (rep_start lc)
  refine ⟨t, h1, ?_⟩
  have hscan := defScan_line (delayedExpand_keeps c'.delayed c'.loops c'.mods c'.getv hv') hl [] (by simp) false
  rw [cmdDef, ← List.nil_append line, show c'.ex = delayedExpand c'.delayed c'.loops c'.mods c'.getv from rfl, hscan]
  simp only [Res.ok_bind, Bool.false_or, Bool.false_eq_true, if_false]
  rw [defSet_eq lc false (defSet_line hl), defCmd]
  have hw : fold (n.take e.name.length) = fold e.name := by
    have : fold (n.take e.name.length) = (fold n).take e.name.length := by simp [fold]
    rw [this, hn, List.take_left' (by simp [fold])]
  have := rep_lookup h2 he (w := n.take e.name.length) (rest := n.drop e.name.length) ⟨hw, .inl h0⟩
  rw [List.take_append_drop] at this
  rw [this]
  rfl

/-- The table is determined by the commands. -/
theorem mapInfo_det {π : Type} (lc : LibC) (T : List (CmdEntry π)) (hd : Distinct T) (hn : T.length ≠ 2 ∧ T.length ≠ 3) :
    mapInfo lc T = putSeed (sortBy (fun x y => stricmp x.name y.name) T) 0 (T.length + 1) .leaf := by
  have hc := consistent_names T
  have hp := (lc.qsort_perm _ T hc).trans (sortBy_perm (fun x y => stricmp x.name y.name) T).symm
  have h1 := lc.qsort_sorted _ T hc
  have h2 := sortBy_sorted _ T hc
  have : lc.qsort (fun x y => stricmp x.name y.name) T = sortBy (fun x y => stricmp x.name y.name) T := by
    refine hp.eq_of_pairwise ?_ h1 h2
    intro a b ha hb hab hba
    have hsym : stricmp a.name b.name = 0 := by
      unfold stricmp at *
      have := lexCmp_neg (codes a.name) (codes b.name)
      omega
    have hnm := codes_inj.1 ((lexCmp_eq_zero _ _).1 hsym)
    have hin : ∀ x ∈ lc.qsort (fun x y => stricmp x.name y.name) T, x ∈ T := fun x hx =>
      (lc.qsort_perm _ T hc).mem_iff.1 hx
    have hinb : b ∈ T := (sortBy_perm _ T).mem_iff.1 hb
    have hm := mapInfo_mem lc T hd hn
    exact sorted_unique (mapInfo_sorted lc T) ((hm a).2 (hin a ha)) ((hm b).2 hinb) hnm
  unfold mapInfo
  simp only [this]
  rw [if_pos (by omega)]

/-- The table of the start, with a new command. -/
def startTree : CmdTree CmdBody := putSeed (sortBy (fun x y => stricmp x.name y.name) startTable) 0 (startTable.length + 1) .leaf

theorem start_tree (lc : LibC) : mapInfo lc startTable = startTree :=
  mapInfo_det lc startTable (by unfold Distinct; decide +kernel) ⟨by decide, by decide⟩

def plainCtx : Ctx := ⟨true, fun _ => none, fun _ _ _ => [], fun _ => .ok none⟩

/-- The table with one more command. -/
def moreTree (e : CmdEntry CmdBody) : CmdTree CmdBody :=
  putSeed (sortBy (fun x y => stricmp x.name y.name) (startTree.add e).entries) 0 ((startTree.add e).entries.length + 1) .leaf

/-- A blank before the equal sign is part of the name: after `DEF foo =bar`, `foo x` is not found. -/
theorem C69_blank (lc : LibC) : ∃ t, cmdDef lc plainCtx.ex [] " foo =bar".toList (mapInfo lc startTable) = .ok ⟨t, [], 0⟩ ∧
    t.lookup "foo x".toList = .ok none := by
  refine ⟨moreTree ⟨"foo ".toList, 4, .text "bar".toList⟩, ?_, by decide +kernel⟩
  rw [start_tree, cmdDef]
  have h1 : defScan plainCtx.ex false false " foo =bar".toList = .ok (.rest false false "foo =bar".toList) := by decide +kernel
  have h2 : searchTok (· == '=') "foo =bar".toList = some 4 := by decide +kernel
  have h3 : startTree.lookup "foo ".toList = .ok none := by decide +kernel
  rw [h1]
  simp only [Res.ok_bind, Bool.false_eq_true, if_false]
  rw [defSet, h2]
  simp only
  rw [show ("foo =bar".toList).take 4 = "foo ".toList from rfl, defCmd, h3]
  simp only [Res.ok_bind, Option.isSome_none, Bool.false_eq_true, if_false, reMap]
  rw [mapInfo_det lc _ (by unfold Distinct; decide +kernel) (by decide +kernel)]
  rfl

/-- An empty name is accepted, and takes unknown commands: after `DEF =bar`, `aaa` runs `bar`. -/
theorem C69_empty (lc : LibC) : ∃ t, cmdDef lc plainCtx.ex [] " =bar".toList (mapInfo lc startTable) = .ok ⟨t, [], 0⟩ ∧
    runTarget plainCtx.ex "aaa".toList t = .ok (.again "bar".toList) := by
  refine ⟨moreTree ⟨[], 0, .text "bar".toList⟩, ?_, by decide +kernel⟩
  rw [start_tree, cmdDef]
  have h1 : defScan plainCtx.ex false false " =bar".toList = .ok (.rest false false "=bar".toList) := by decide +kernel
  have h2 : searchTok (· == '=') "=bar".toList = some 0 := by decide +kernel
  have h3 : startTree.lookup [] = .ok none := by decide +kernel
  rw [h1]
  simp only [Res.ok_bind, Bool.false_eq_true, if_false]
  rw [defSet, h2]
  simp only
  rw [show ("=bar".toList).take 0 = [] from rfl, defCmd, h3]
  simp only [Res.ok_bind, Option.isSome_none, Bool.false_eq_true, if_false, reMap]
  rw [mapInfo_det lc _ (by unfold Distinct; decide +kernel) (by decide +kernel)]
  rfl

/-- A blank after `DEF /l` hides all definitions. -/
theorem C69_list_blank (lc : LibC) (t : CmdTree CmdBody) (h : ∀ e ∈ t.entries, e.name.head? ≠ some ' ') :
    cmdDef lc plainCtx.ex [] " /l ".toList t = .ok ⟨t, [], 0⟩ := by
  have h1 : defScan plainCtx.ex false false " /l ".toList = .ok (.rest false true " ".toList) := by decide +kernel
  rw [cmdDef, h1]
  simp only [Res.ok_bind, if_true]
  rw [listDefs_eq]
  have : (t.entries.map (defItem " ".toList)).flatten = [] := by
    rw [List.flatten_eq_nil_iff]
    intro l hl
    obtain ⟨e, he, rfl⟩ := List.mem_map.1 hl
    unfold defItem
    cases e.info with
    | proc _ => rfl
    | text s =>
      have := h e he
      simp only
      rw [if_neg]
      rintro (hh | hh)
      · simp at hh
      · cases hn : e.name with
        | nil => rw [hn] at hh; simp [prefixI] at hh
        | cons d n =>
          rw [hn] at hh this
          simp only [show " ".toList = [' '] from rfl, prefixI, Bool.and_true, beq_iff_eq] at hh
          have h5 : ∀ d : Char, d.toLower = ' ' → d = ' ' := by
            intro d hd
            by_cases hu : d.isUpper = true
            · exfalso
              have h1 : d.toNat ≤ 90 ∧ 65 ≤ d.toNat := by
                simp only [Char.isUpper, Bool.and_eq_true, decide_eq_true_eq] at hu
                exact ⟨hu.2, hu.1⟩
              have h2 : ∀ k, k ≤ 90 → 65 ≤ k → (Char.ofNat k).toLower ≠ ' ' := by decide
              refine h2 d.toNat h1.1 h1.2 ?_
              rw [Char.ofNat_toNat, hd]
            · rwa [Char.toLower, dif_neg] at hd
              intro hh
              apply hu
              simp only [Char.isUpper, Bool.and_eq_true, decide_eq_true_eq]
              exact hh
          exact this (by rw [h5 d hh.symm]; rfl)
  rw [this]

/-! ### Examples -/

example : ∃ T, DefHistory startTable [(" ll=dir /p $*".toList, 0), (" dir=x".toList, 37), (" /F dir=echo \"=\"".toList, 0)] T ∧
    (⟨"ll".toList, 2, .text "dir /p $*".toList⟩ : CmdEntry CmdBody) ∈ T ∧ (⟨"DIR".toList, 3, .text "echo \"=\"".toList⟩ : CmdEntry CmdBody) ∈ T := by
  have definable : ∀ (T : List (CmdEntry CmdBody)) (f : Bool) (n : List Char),
      (T.all fun x => !((fold x.name).isPrefixOf (fold n) && (fold x.name) != fold n)) = true → Definable T f n := by
    intro T f n h x hx c s hcs
    have := List.all_eq_true.1 h x hx
    have h2 : (fold x.name).isPrefixOf (fold n) = true := by
      rw [List.isPrefixOf_iff_prefix, hcs]; exact List.prefix_append _ _
    rw [h2] at this
    rw [hcs] at this
    simp at this
  refine ⟨_, .cons (.plain (w := [' ']) (n := ['l', 'l']) (by decide) (by decide)) (definable _ _ _ (by decide +kernel))
    (.cons (.plain (w := [' ']) (n := ['d', 'i', 'r']) (by decide) (by decide)) (definable _ _ _ (by decide +kernel))
      (.cons (.force (w := [' ']) (f := ['/', 'F']) (b := ' ') (by decide) (by decide) (by decide)
        (.plain (w := []) (n := ['d', 'i', 'r']) (by decide) (by decide))) (definable _ _ _ (by decide +kernel)) .nil)), ?_, ?_⟩
  · decide +kernel
  · decide +kernel

end PBat
