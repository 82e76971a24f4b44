import Verif.Spec.Def
import Verif.Lemmas.Echo
import Verif.Lemmas.CmdList
import Verif.Lemmas.ReplaceI
/-
Helper lemmas for DEF.
-/
namespace PBat
open Spec

variable {π : Type}

theorem fold_append' (a b : List Char) : fold (a ++ b) = fold a ++ fold b := by simp [fold]

/-- A line that calls a command of a clear table finds it. -/
theorem lookup_call {t : CmdTree π} (hs : t.Sorted) (hr : ∀ x ∈ t.entries, Registered x) (hc : Unmixed t.entries) {e : CmdEntry π}
    (he : e ∈ t.entries) {w rest : List Char} (h : CallsBy w rest e) : t.lookup (w ++ rest) = .ok (some e) := by
  obtain ⟨hw, hend⟩ := h
  have hlonger : ∀ y ∈ t.entries, ∀ c s, fold y.name = fold e.name ++ c :: s → ∀ d, rest.head? = some d → d.toLower.toNat < c.toNat := by
    intro y hy c s hcs d hd
    obtain ⟨k1, k2, -⟩ := hc e he y hy c s hcs
    obtain ⟨k3, k4⟩ := hend.resolve_left k1
    have := k3 d hd
    have hsmall : ∀ d ∈ " ,;\n\t/".toList, d ≠ ';' → d.toLower.toNat ≤ '/'.toNat := by decide
    have := hsmall d this (by rintro rfl; exact k4 hd)
    omega
  have hshorter : ∀ y ∈ t.entries, ∀ c s, fold e.name = fold y.name ++ c :: s → y.limit ≠ 0 ∧ c ∉ " ,;\n\t/".toList := by
    intro y hy c s hcs
    obtain ⟨k1, k2, k3⟩ := hc y hy e he c s hcs
    refine ⟨k1, fun hm => ?_⟩
    have hsmall : ∀ d ∈ " ,;\n\t/".toList, d ≠ ';' → d.toNat ≤ '/'.toNat := by decide
    have := hsmall c hm k3
    omega
  refine lookup_find hs hr he ⟨w, rest, rfl, hw, hend.imp id And.left⟩ ?_ ?_
  · rintro y hy ⟨w', rest', heq, hw', hend'⟩
    have h1 := congrArg fold heq
    rw [fold_append', fold_append', hw, hw'] at h1
    rcases List.append_eq_append_iff.1 h1 with ⟨s, h2, h3⟩ | ⟨s, h2, h3⟩
    · cases s with
      | nil => exact sorted_unique hs hy he (by simpa using h2)
      | cons c s =>
        exfalso
        cases rest with
        | nil => simp [fold] at h3
        | cons d rest =>
          have := hlonger y hy c s h2 d rfl
          simp only [fold, List.map_cons, List.cons_append, List.cons.injEq] at h3
          rw [h3.1] at this
          omega
    · cases s with
      | nil => exact sorted_unique hs hy he (by simpa using h2.symm)
      | cons c s =>
        exfalso
        obtain ⟨k1, k2⟩ := hshorter y hy c s h2
        have hce := hend'.resolve_left k1
        cases rest' with
        | nil => simp [fold] at h3
        | cons d rest' =>
          have hdm := hce d rfl
          simp only [fold, List.map_cons, List.cons_append, List.cons.injEq] at h3
          have hlow : ∀ d ∈ " ,;\n\t/".toList, d.toLower = d := by decide
          have := hlow d hdm
          rw [this] at h3
          exact k2 (h3.1 ▸ hdm)
  · intro y hy hp hne
    rw [codes_eq, codes_eq, List.prefix_map_iff_of_injective (fun a b h => toNat_inj h)] at hp
    obtain ⟨s, hs'⟩ := hp
    cases s with
    | nil => exact absurd (sorted_unique hs hy he (by simpa using hs'.symm)) hne
    | cons c s =>
      rw [codes_eq, codes_eq, ← hs', fold_append', hw, List.map_append, List.map_append]
      have key : ∀ (p x y : List Nat), lexCmp (p ++ x) (p ++ y) = lexCmp x y := by
        intro p x y
        induction p with
        | nil => rfl
        | cons a p ih => simp [lexCmp, ih]
      rw [key]
      cases rest with
      | nil => simp [fold, lexCmp]
      | cons d rest =>
        have := hlonger y hy c s hs'.symm d rfl
        simp only [fold, List.map_cons, lexCmp]
        rw [if_pos this]
        omega

/-- What `pBat_ReplaceCommand` makes of a command. -/
def renew (e x : CmdEntry π) : CmdEntry π := if fold x.name = fold e.name then ⟨x.name, e.limit, e.info⟩ else x

theorem renew_name (e x : CmdEntry π) : (renew e x).name = x.name := by unfold renew; split <;> rfl

theorem map_renew_id {e : CmdEntry π} {l : List (CmdEntry π)} (h : ∀ y ∈ l, fold y.name ≠ fold e.name) : l.map (renew e) = l := by
  induction l with
  | nil => rfl
  | cons a l ih =>
    rw [List.map_cons, ih fun y hy => h y (List.mem_cons_of_mem _ hy), renew, if_neg (h a (by simp))]

theorem replace_spec {e : CmdEntry π} {t : CmdTree π} (hs : t.Sorted) (hk : Known t.entries e.name)
    (hp : ∀ x ∈ t.entries, ∀ c s, fold e.name ≠ fold x.name ++ c :: s) :
    ∃ t', t.replace e = some t' ∧ t'.entries = t.entries.map (renew e) := by
  induction t with
  | leaf => obtain ⟨x, hx, -⟩ := hk; simp [CmdTree.entries] at hx
  | node z l r ihl ihr =>
    obtain ⟨h1, h2, h3, h4⟩ := hs
    have hlm : ∀ y ∈ l.entries, y ∈ (CmdTree.node z l r).entries := fun y hy => by simp [CmdTree.entries, hy]
    have hrm : ∀ y ∈ r.entries, y ∈ (CmdTree.node z l r).entries := fun y hy => by simp [CmdTree.entries, hy]
    have irr : ∀ a : List Nat, lexCmp a a = 0 := fun a => (lexCmp_eq_zero a a).2 rfl
    obtain ⟨x, hx, hxn⟩ := hk
    have hxc := codes_inj.2 hxn
    have hcl := codes_length z.name
    simp only [CmdTree.entries, List.mem_cons, List.mem_append] at hx
    rw [CmdTree.replace]
    simp only [← hcl]
    split
    · next h =>
      have hgt := lexCmp_take_gt h
      have hneg := lexCmp_neg (codes e.name) (codes z.name)
      have hxr : x ∈ r.entries := by
        rcases hx with rfl | hx | hx
        · rw [← hxc, irr] at hgt; omega
        · have := h3 x hx; rw [hxc] at this; omega
        · exact hx
      obtain ⟨r', hr', he⟩ := ihr h2 ⟨x, hxr, hxn⟩ (fun y hy => hp y (hrm y hy))
      refine ⟨.node z l r', by rw [hr']; rfl, ?_⟩
      have hz : fold z.name ≠ fold e.name := by
        intro hh; rw [codes_inj.2 hh, irr] at hgt; omega
      simp only [CmdTree.entries, List.map_cons, List.map_append, he]
      rw [map_renew_id (l := l.entries), renew, if_neg hz]
      intro y hy hh
      have := h3 y hy
      rw [codes_inj.2 hh] at this
      omega
    · split
      · next h =>
        have hlt := lexCmp_take_lt h
        have hneg := lexCmp_neg (codes e.name) (codes z.name)
        have hxl : x ∈ l.entries := by
          rcases hx with rfl | hx | hx
          · rw [← hxc, irr] at hlt; omega
          · exact hx
          · have := h4 x hx; rw [hxc] at this; omega
        obtain ⟨l', hl', he⟩ := ihl h1 ⟨x, hxl, hxn⟩ (fun y hy => hp y (hlm y hy))
        refine ⟨.node z l' r, by rw [hl']; rfl, ?_⟩
        have hz : fold z.name ≠ fold e.name := by
          intro hh; rw [codes_inj.2 hh, irr] at hlt; omega
        simp only [CmdTree.entries, List.map_cons, List.map_append, he]
        rw [map_renew_id (l := r.entries), renew, if_neg hz]
        intro y hy hh
        have := h4 y hy
        rw [codes_inj.2 hh] at this
        omega
      · next k1 k2 =>
        have hc : lexCmp ((codes e.name).take z.name.length) (codes z.name) = 0 := by rw [← hcl]; omega
        obtain ⟨w, rest, h5, h6⟩ := (begins_iff _ _).1 hc
        have h7 : fold e.name = fold z.name ++ fold rest := by rw [h5, fold_append', h6]
        have hrest : fold rest = [] := by
          cases hf : fold rest with
          | nil => rfl
          | cons c s =>
            rw [hf] at h7
            exact absurd h7 (hp z (by simp [CmdTree.entries]) c s)
        rw [hrest, List.append_nil] at h7
        refine ⟨_, rfl, ?_⟩
        have hzc := codes_inj.2 h7
        simp only [CmdTree.entries, List.map_cons, List.map_append]
        rw [map_renew_id (l := l.entries), map_renew_id (l := r.entries), renew, if_pos h7.symm]
        · intro y hy hh
          have := h4 y hy
          rw [codes_inj.2 hh, hzc, irr] at this
          omega
        · intro y hy hh
          have := h3 y hy
          rw [codes_inj.2 hh, hzc, irr] at this
          omega

theorem names_replace {e : CmdEntry π} : ∀ {t t' : CmdTree π}, t.replace e = some t' →
    t'.entries.map (·.name) = t.entries.map (·.name)
  | .leaf, t', h => by simp [CmdTree.replace] at h
  | .node z l r, t', h => by
    rw [CmdTree.replace] at h
    split at h
    · simp only [Option.map_eq_some_iff] at h
      obtain ⟨r', hr', rfl⟩ := h
      simp [CmdTree.entries, names_replace hr']
    · split at h
      · simp only [Option.map_eq_some_iff] at h
        obtain ⟨l', hl', rfl⟩ := h
        simp [CmdTree.entries, names_replace hl']
      · simp only [Option.some.injEq] at h
        subst h
        simp [CmdTree.entries]

theorem forall_names {p : List Char → Prop} {l l' : List (CmdEntry π)} (h : l'.map (·.name) = l.map (·.name))
    (hp : ∀ y ∈ l, p y.name) : ∀ y ∈ l', p y.name := by
  intro y hy
  have : y.name ∈ l.map (·.name) := by rw [← h]; exact List.mem_map_of_mem hy
  obtain ⟨z, hz, hn⟩ := List.mem_map.1 this
  rw [← hn]
  exact hp z hz

theorem sorted_replace {e : CmdEntry π} : ∀ {t t' : CmdTree π}, t.Sorted → t.replace e = some t' → t'.Sorted
  | .leaf, t', _, h => by simp [CmdTree.replace] at h
  | .node z l r, t', ⟨h1, h2, h3, h4⟩, h => by
    rw [CmdTree.replace] at h
    split at h
    · simp only [Option.map_eq_some_iff] at h
      obtain ⟨r', hr', rfl⟩ := h
      exact ⟨h1, sorted_replace h2 hr', h3, forall_names (p := fun n => lexCmp (codes z.name) (codes n) < 0) (names_replace hr') h4⟩
    · split at h
      · simp only [Option.map_eq_some_iff] at h
        obtain ⟨l', hl', rfl⟩ := h
        exact ⟨sorted_replace h1 hl', h2, forall_names (p := fun n => lexCmp (codes n) (codes z.name) < 0) (names_replace hl') h3, h4⟩
      · simp only [Option.some.injEq] at h
        subst h
        exact ⟨h1, h2, h3, h4⟩

/-! ### Reading the line -/

theorem toLower_slash {c : Char} (h : c.toLower = '/') : c = '/' := by
  by_cases hu : c.isUpper = true
  · exfalso
    have h1 : c.toNat ≤ 90 ∧ 65 ≤ c.toNat := by
      simp only [Char.isUpper, Bool.and_eq_true, decide_eq_true_eq] at hu
      exact ⟨hu.2, hu.1⟩
    have h2 : ∀ k, k ≤ 90 → 65 ≤ k → (Char.ofNat k).toLower ≠ '/' := by decide
    refine h2 c.toNat h1.1 h1.2 ?_
    rw [Char.ofNat_toNat, h]
  · rwa [Char.toLower, dif_neg] at h
    intro hh
    apply hu
    simp only [Char.isUpper, Bool.and_eq_true, decide_eq_true_eq]
    exact hh

/-- The options. -/
theorem nextParam_option {ex : List Char → Res (List Char)} (hk : Keeps ex) {w f tail : List Char} {l : Char} (hw : ∀ c ∈ w, Blank c)
    (hl : l = 'f' ∨ l = 'l') (hf : fold f = ['/', l]) (ht : Stops tail) :
    nextParam stdDelims ex (w ++ (f ++ tail)) = .ok (some (f, tail)) ∧ f ≠ [] ∧ f ≠ "/?".toList := by
  have hlow : ∀ c ∈ f, c = '/' ∨ c.toLower = l := by
    intro c hc
    have : c.toLower ∈ fold f := List.mem_map_of_mem hc
    rw [hf, List.mem_cons, List.mem_singleton] at this
    rcases this with h | h
    · left
      exact toLower_slash h
    · exact .inr h
  have hne : f ≠ [] := by rintro rfl; simp [fold] at hf
  have hplain : ∀ c ∈ f, ¬ Blank c ∧ c ∉ ['"', '^', '%', '!'] := by
    intro c hc
    rcases hlow c hc with rfl | h
    · decide
    · refine ⟨?_, ?_⟩
      · rintro (rfl | rfl | rfl | rfl | rfl) <;> rcases hl with rfl | rfl <;> simp [Char.toLower] at h
      · intro hm
        simp only [List.mem_cons, List.not_mem_nil, or_false] at hm
        rcases hm with rfl | rfl | rfl | rfl <;> rcases hl with rfl | rfl <;> simp [Char.toLower] at h
  have hwr : Written (fun c => c == '"' || c == '^') f f := by
    refine .word hne (fun c hc => (hplain c hc).1) (fun hc => (hplain _ hc).2 (by decide)) ?_
    intro c hc
    have := (hplain c hc).2
    simp only [List.mem_cons, List.not_mem_nil, or_false, not_or] at this
    simp [this]
  have h := nextParam_written (q := fun c => c == '"' || c == '^') rfl rfl ex hw hwr ht
  have hesc : escape (fun c => c == '"' || c == '^') f = f := by
    rw [escape_none]
    intro c hc
    have := (hplain c hc).2
    simp only [List.mem_cons, List.not_mem_nil, or_false, not_or] at this
    simp [this]
  rw [hesc, hk.plain f (by
    intro c hc
    have := (hplain c hc).2
    simp only [List.mem_cons, List.not_mem_nil, or_false, not_or] at this
    simp [this])] at h
  refine ⟨h, hne, ?_⟩
  rintro rfl
  rcases hl with rfl | rfl <;> revert hf <;> decide

theorem defScan_force {ex : List Char → Res (List Char)} (hk : Keeps ex) {w f rest : List Char} {b : Char} (hw : ∀ c ∈ w, Blank c)
    (hf : fold f = "/f".toList) (hb : Blank b) (fc li : Bool) : defScan ex fc li (w ++ (f ++ b :: rest)) = defScan ex true li (b :: rest) := by
  obtain ⟨h, hne, h1⟩ := nextParam_option hk hw (.inl rfl) hf (.inr ⟨b, rest, rfl, hb⟩)
  rw [defScan, h]
  simp only
  rw [if_neg h1, if_pos (by rw [stricmp_zero, hf]; rfl), if_pos]
  have := List.length_pos_iff.2 hne
  simp only [List.length_append, List.length_cons]
  omega

theorem defScan_list {ex : List Char → Res (List Char)} (hk : Keeps ex) {w f tail : List Char} (hw : ∀ c ∈ w, Blank c)
    (hf : fold f = "/l".toList) (ht : Stops tail) {fc li : Bool} : defScan ex fc li (w ++ (f ++ tail)) = defScan ex fc true tail := by
  obtain ⟨h, hne, h1⟩ := nextParam_option hk hw (.inr rfl) hf ht
  rw [defScan, h]
  simp only
  rw [if_neg h1, if_neg (by rw [stricmp_zero, hf]; decide), if_pos (by rw [stricmp_zero, hf]; rfl), if_pos]
  have := List.length_pos_iff.2 hne
  simp only [List.length_append]
  omega

theorem defName_ordinary {c : Char} {n : List Char} (hn : DefName (c :: n)) : Ordinary c := by
  have hc := hn.2.2 c (by simp)
  have hcc := hc.2
  simp only [List.mem_cons, List.not_mem_nil, or_false, not_or] at hcc
  refine ⟨?_, ?_⟩
  · rintro (rfl | rfl | rfl | rfl | rfl)
    · exact absurd hc.1 (by decide)
    · exact absurd hc.1 (by decide)
    · exact absurd hc.1 (by decide)
    · exact hcc.1 rfl
    · exact absurd hc.1 (by decide)
  · intro hm
    simp only [List.mem_cons, List.not_mem_nil, or_false] at hm
    rcases hm with rfl | rfl | rfl | rfl | rfl
    · exact absurd hc.1 (by decide)
    · exact absurd hc.1 (by decide)
    · exact hcc.2.2 rfl
    · exact absurd hc.1 (by decide)
    · exact absurd hc.1 (by decide)

theorem defScan_name {ex : List Char → Res (List Char)} (hk : Keeps ex) {w n : List Char} (hw : ∀ c ∈ w, Blank c) (hn : DefName n)
    (r : List Char) (fc li : Bool) : defScan ex fc li (w ++ (n ++ r)) = .ok (.rest fc li (n ++ r)) := by
  obtain ⟨h0, h1, h2⟩ := hn
  cases n with
  | nil => exact absurd rfl h0
  | cons c n =>
    have hc := h2 c (by simp)
    have hch : c ≠ '@' := fun hh => h1 (by rw [hh]; rfl)
    have hord := defName_ordinary ⟨h0, h1, h2⟩
    have hnb := hord.1
    obtain ⟨u, rest, hp⟩ := first_char hk (r := n ++ r) hw hord
    rw [List.cons_append, defScan, hp]
    have hslash : c ≠ '/' := by rintro rfl; exact absurd hc.1 (by decide)
    have hfold : ∀ d : Char, fold (c :: u) ≠ ['/', d] := by
      intro d hh
      simp only [fold, List.map_cons, List.cons.injEq] at hh
      exact hslash (toLower_slash hh.1)
    simp only
    rw [if_neg (by intro hh; simp [hslash] at hh), if_neg (by rw [stricmp_zero]; exact fun hh => hfold 'f' hh.symm),
      if_neg (by rw [stricmp_zero]; exact fun hh => hfold 'l' hh.symm)]
    have hsk : ∀ w : List Char, (∀ c ∈ w, Blank c) → skipAllBlanks (w ++ c :: (n ++ r)) = c :: (n ++ r) := by
      intro w hw
      induction w with
      | nil =>
        unfold Blank at hnb
        simp only [not_or] at hnb
        simp [skipAllBlanks, isDelim, hnb, hch]
      | cons d w ih =>
        have hd := hw d (by simp)
        have : isDelim d = true := by rcases hd with rfl | rfl | rfl | rfl | rfl <;> rfl
        rw [List.cons_append, skipAllBlanks, this]
        exact ih fun c hc => hw c (List.mem_cons_of_mem _ hc)
    rw [hsk w hw]

theorem defScan_line {ex : List Char → Res (List Char)} (hk : Keeps ex) {line n body : List Char} {force : Bool}
    (h : DefLine line force n body) (b : List Char) (hb : ∀ c ∈ b, Blank c) (fc : Bool) :
    defScan ex fc false (b ++ line) = .ok (.rest (fc || force) false (n ++ '=' :: body)) := by
  induction h generalizing b fc with
  | plain hw hn =>
    rw [← List.append_assoc, defScan_name hk (fun c hc => (List.mem_append.1 hc).elim (hb c) (hw c)) hn]
    simp
  | @force w f c rest fo n body hw hf hc _ ih =>
    rw [← List.append_assoc, defScan_force hk (fun c hc => (List.mem_append.1 hc).elim (hb c) (hw c)) hf hc,
      show c :: rest = [c] ++ rest from rfl, ih [c] (by simpa using hc)]
    simp

theorem defSet_line {line n body : List Char} {force : Bool} (h : DefLine line force n body) : DefName n := by
  induction h with
  | plain _ hn => exact hn
  | force _ _ _ _ ih => exact ih

theorem defSet_eq (lc : LibC) (force : Bool) {n : List Char} (hn : DefName n) (body : List Char) (t : CmdTree CmdBody) :
    defSet lc force (n ++ '=' :: body) t = (defCmd lc force n (.text body) t >>= fun r =>
      .ok ⟨r.1, [], if r.2 then 0 else if force then 38 else 37⟩) := by
  have h1 : searchTok (· == '=') (n ++ '=' :: body) = some n.length := by
    refine searchTok_word _ ?_ ?_ rfl
    · intro d hd
      have := (hn.2.2 d hd).2
      simp only [List.mem_cons, List.not_mem_nil, or_false, not_or] at this
      simp [this]
    · intro hc
      exact (hn.2.2 _ hc).2 (by decide)
  unfold defSet
  rw [h1]
  simp

end PBat
