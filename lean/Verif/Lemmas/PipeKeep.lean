import Verif.Lemmas.PipeRun
/-
C93: the three descriptors of an interpreter keep their numbers.
-/
namespace PBat.Pipe

variable {ι φ : Type}

/-- A system call that changes no number of the three descriptors. -/
def Keep : Act ι φ → Prop
  | .dup d _ => ¬ Std d
  | .open d _ => ¬ Std d
  | .pipe _ r w => ¬ Std r ∧ ¬ Std w
  | .move d _ => ¬ Std d
  | _ => True

/-- A program made of such calls. -/
def Prog.Keeps : Prog ι φ → Prop
  | .done => True
  | .act a k => Keep a ∧ k.Keeps
  | .spawn _ _ _ _ k => k.Keeps

theorem keeps_acts {l : List (Act ι φ)} {k : Prog ι φ} (h : ∀ a ∈ l, Keep a) (hk : k.Keeps) : (Prog.acts l k).Keeps := by
  induction l with
  | nil => exact hk
  | cons a l ih => exact ⟨h a (by simp), ih fun b hb => h b (by simp [hb])⟩

theorem keep_take (c : Ctx) (src r : Reg) : ∀ a ∈ (c.take (ι := ι) (φ := φ) src r).1, Keep a := by
  simp [Ctx.take, Keep, Std]

theorem keep_openTo (c : Ctx) (f : Option φ) (r : Reg) : ∀ a ∈ (c.openTo (ι := ι) f r).1, Keep a := by
  cases f with
  | none => simp [Ctx.openTo]
  | some f => simp [Ctx.openTo, Ctx.take, Keep, Std]

theorem keep_redirect (c : Ctx) (r : Redirs φ) : ∀ a ∈ (c.redirect (ι := ι) r).1, Keep a := by
  intro a ha
  simp only [Ctx.redirect, List.mem_append] at ha
  rcases ha with (h | h) | h <;> exact keep_openTo _ _ _ a h

theorem keep_pops (l : List (Option Reg × Bool)) (k : Nat) : ∀ a ∈ pops (ι := ι) (φ := φ) l k, Keep a := by
  induction l generalizing k with
  | nil => cases k <;> simp [pops]
  | cons x rest ih =>
    obtain ⟨x, y⟩ := x
    cases k with
    | zero => cases x <;> simp [pops]
    | succ k =>
      cases x with
      | none => rw [pops]; exact ih k
      | some r =>
        rw [pops]
        intro a ha
        simp only [List.mem_append, List.mem_cons, List.not_mem_nil, or_false] at ha
        rcases ha with (rfl | rfl) | ha
        · trivial
        · trivial
        · exact ih k a ha

theorem keep_clone (c : Ctx) : ∀ a ∈ c.clone (ι := ι) (φ := φ), Keep a := by
  simp [Ctx.clone, Keep, Std]

theorem keep_fed (c : Ctx) (b : Bool) : ∀ a ∈ (c.fed (ι := ι) (φ := φ) b).1, Keep a := by
  cases b
  · simp [Ctx.fed]
  · exact keep_take _ _ _

theorem keeps_leave (c : Ctx) : (c.leave (ι := ι) (φ := φ)).Keeps := by
  refine keeps_acts (fun a ha => ?_) trivial
  rcases List.mem_append.1 ha with h | h
  · exact keep_pops _ _ a h
  · simp only [List.mem_cons, List.not_mem_nil, or_false] at h
    rcases h with rfl | rfl | rfl <;> trivial

mutual
theorem keepsC : ∀ (cmd : Cmd ι φ) (c : Ctx) (k : Nat → Prog ι φ) (n : Nat), (∀ m, (k m).Keeps) → (cmd.code c k n).Keeps
  | .run i, c, k, n, hk => by rw [Cmd.code]; exact ⟨trivial, hk n⟩
  | .exit, c, k, n, hk => by rw [Cmd.code]; exact keeps_leave c
  | .block b, c, k, n, hk => by rw [Cmd.code]; exact keepsB b c k n hk
  | .start b, c, k, n, hk => by rw [Cmd.code]; exact keeps_acts (keep_clone c) (hk (n + 1))
  | .feed b body, c, k, n, hk => by
    rw [Cmd.code]
    exact ⟨by simp [Keep, Std], keeps_acts (keep_clone c) (keepsB body _ _ _ fun m => ⟨trivial, hk m⟩)⟩
theorem keepsB : ∀ (b : Cmds ι φ) (c : Ctx) (k : Nat → Prog ι φ) (n : Nat), (∀ m, (k m).Keeps) → (b.code c k n).Keeps
  | .nil, c, k, n, hk => by rw [Cmds.code]; exact hk n
  | .cons p rest, c, k, n, hk => by
    rw [Cmds.code]
    exact keepsL p false c _ n fun m => keepsB rest c k m hk
theorem keepsL : ∀ (p : Line ι φ) (b : Bool) (c : Ctx) (k : Nat → Prog ι φ) (n : Nat), (∀ m, (k m).Keeps) → (p.code b c k n).Keeps
  | .last r cmd, b, c, k, n, hk => by
    rw [Line.code]
    refine keeps_acts (fun a ha => ?_) (keepsC cmd _ _ n fun m => keeps_acts (keep_pops _ _) (hk m))
    rcases List.mem_append.1 ha with h | h
    · exact keep_fed _ _ a h
    · exact keep_redirect _ _ a h
  | .pipe r cmd rest, b, c, k, n, hk => by
    rw [Line.code]
    exact ⟨by simp [Keep, Std], keeps_acts (keep_clone c) ⟨by simp [Keep, Std], keepsL rest true c k (n + 1) hk⟩⟩
end

theorem doAct_keeps {a : Act ι φ} {who : Name} {regs regs' : Reg → Nat} {tab tab' : Nat → Option (Chan φ)} {n1 n2 : Nat}
    {e : List (Event ι φ)} (ha : Keep a) (h : doAct a who regs tab n1 n2 = some (regs', tab', e)) (r : Reg) (hr : Std r) :
    regs' r = regs r := by
  have hu : ∀ (f : Reg → Nat) d x, ¬ Std d → upd f d x r = f r := by
    intro f d x hd
    simp only [upd]
    rw [if_neg]
    rintro rfl
    exact hd hr
  cases a <;> simp only [doAct] at h <;> (try split at h) <;> first
    | (cases h; done)
    | (injection h with h; injection h with h _; subst h; first
        | rfl
        | exact hu _ _ _ ha
        | (rw [hu _ _ _ ha.2, hu _ _ _ ha.1]))

/-- What stays true of the main thread. -/
structure Main (regs : Reg → Nat) (s : Sys ι φ) : Prop where
  size : 0 < s.size
  path : (s.thr 0).path = []
  regs : ∀ r, Std r → (s.thr 0).regs r = regs r
  keeps : (s.thr 0).prog.Keeps

theorem Main.step {regs : Reg → Nat} {s u : Sys ι φ} {i n1 n2 : Nat} (h : Main regs s) (hs : s.step i n1 n2 = some u) :
    Main regs u := by
  unfold Sys.step at hs
  split at hs
  · rename_i hi
    split at hs
    · cases hs
    · rename_i a k hp
      split at hs
      · cases hs
      · rename_i x y e hd
        cases hs
        by_cases h0 : i = 0
        · subst h0
          have hk := h.keeps
          rw [hp] at hk
          refine ⟨h.size, by simpa [upd] using h.path, fun r hr => ?_, by simpa [upd] using hk.2⟩
          simp only [upd, ↓reduceIte]
          rw [doAct_keeps hk.1 hd r hr, h.regs r hr]
        · have h0' : ¬ 0 = i := fun e => h0 e.symm
          exact ⟨h.size, by simpa [upd, h0'] using h.path, fun r hr => by simpa [upd, h0'] using h.regs r hr,
            by simpa [upd, h0'] using h.keeps⟩
    · rename_i p bo bi ch k hp
      cases hs
      have hz : ¬ 0 = s.size := by have := h.size; omega
      by_cases h0 : i = 0
      · subst h0
        have hk := h.keeps
        rw [hp, Prog.Keeps] at hk
        exact ⟨by simp, by simpa [upd, hz] using h.path, fun r hr => by simpa [upd, hz] using h.regs r hr,
          by simpa [upd, hz] using hk⟩
      · have h0' : ¬ 0 = i := fun e => h0 e.symm
        exact ⟨by simp, by simpa [upd, h0', hz] using h.path, fun r hr => by simpa [upd, h0', hz] using h.regs r hr,
          by simpa [upd, h0', hz] using h.keeps⟩
  · cases hs

theorem reach_main {b : Cmds ι φ} {tab : Nat → Option (Chan φ)} {regs : Reg → Nat} {s : Sys ι φ}
    (hr : Reach (begin b tab regs) s) : Main regs s := by
  generalize hs0 : begin b tab regs = s0 at hr
  induction hr with
  | refl =>
    subst hs0
    exact ⟨by simp [begin], rfl, fun _ _ => rfl, keepsB b _ _ _ fun _ => trivial⟩
  | step j n1 n2 _ hst ih => exact ih.step hst

end PBat.Pipe
