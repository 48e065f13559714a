import Verif.SchedThms
import Verif.KernelCol

/-
The serial kernels as small-step programs, and the threaded drivers of the SIR functions.

In the interleaving semantics a kernel is not atomic: every read of `h[i]`, every write of
`h[i]` and every loop test is a step of its own.
-/

namespace Dream
open Arith

variable {F : Type} [Arith F]

/-- The state with which a loop ends or returns. -/
def Ctl.val {σ : Type} : Ctl σ → σ
  | .next s => s
  | .ret s => s

/-- Control point inside a serial kernel. -/
inductive KPC (F : Type)
  | clear (i : Nat)                            -- `h[i] = 0.0`
  | outer (ys : F)                             -- `while (ys <= ysmax)`
  | inner (ys xs : F)                          -- `while (xs <= xsmax)` and body up to `it`
  | addRd (ys xs : F) (it : Int) (ai : F)      -- read of `h[it] += ai`
  | addWr (ys xs : F) (it : Int) (x : F)       -- write of `h[it] += ai`
  | attRd (ys xs r : F) (it : Int) (ai : F) (i : Nat)    -- `h[i] += ai * x[i]`, read
  | attWr (ys xs r : F) (it : Int) (ai : F) (i : Nat) (x : F)  -- write

/-- Local state of a worker inside a serial kernel: the loops to run (fixed by the observation
point), whether there is only one row (line transducer), `err`, control point. -/
structure KLoc (F : Type) where
  g : Sweep F
  single : Bool
  err : SIRError
  pc : KPC F

/-- One step of a serial kernel (src/dreamrect.cc 274-400 and the other kernels; see
`deposit`, `innerLoop`, `outerLoop`, `clearCol`, `attAdd` for the line by line transcription
this splits into single steps). -/
def kernStep (nt : Nat) (ty : IdxTy) (level : ErrorLevel) (att : Option (AttResp F))
    (l : KLoc F) : Eff F (KLoc F) :=
  match l.pc with
  | .clear i =>
    if i < nt then .wr (i : Int) (lit 0) { l with pc := .clear (i + 1) }
    else if l.single then .tau { l with pc := .inner l.g.y0 (l.g.row l.g.y0).x0 }
    else .tau { l with pc := .outer l.g.y0 }
  | .outer ys =>
    if le ys l.g.ymax then .tau { l with pc := .inner ys (l.g.row ys).x0 }
    else .ret l.err
  | .inner ys xs =>
    if le xs (l.g.row ys).xmax then
      let p := (l.g.row ys).pt xs
      match castIdx ty (rint p.arg) with
      | .ub e => .bad e
      | .fuel => .bad .cast
      | .ok it =>
        if it < (nt : Int) ∧ it ≥ 0 then
          match att with
          | none => .tau { l with pc := .addRd ys xs it p.ai }
          | some _ => .tau { l with pc := .attRd ys xs p.r it p.ai 0 }
        else
          let err := oobErr level
          if err = .outOfBounds then .ret err
          else .tau { l with pc := .inner ys (xs +. l.g.dx), err := err }
    else if l.single then .ret l.err
    else .tau { l with pc := .outer (ys +. l.g.dy) }
  | .addRd ys xs it ai => .rd it fun x => { l with pc := .addWr ys xs it (x +. ai) }
  | .addWr ys xs it x => .wr it x { l with pc := .inner ys (xs +. l.g.dx) }
  | .attRd ys xs r it ai i =>
    if i < nt then
      .rd (i : Int) fun x =>
        { l with pc := .attWr ys xs r it ai i (x +. ai *. (att.getD (fun _ _ _ => lit 0)) r it i) }
    else .tau { l with pc := .inner ys (xs +. l.g.dx) }
  | .attWr ys xs r it ai i x => .wr (i : Int) x { l with pc := .attRd ys xs r it ai (i + 1) }

/-- The loops of a kernel.  The line kernel has a single row (its `ys` is not used). -/
def Kern.geo (k : Kern F) (p : Par F) (xo yo zo : F) : Sweep F :=
  match k with
  | .rect w a b => rectSweep p w xo yo zo a b
  | .circ w R => circSweep p w xo yo zo R
  | .cylind w a b Rc => cylindSweep p w xo yo zo a b Rc
  | .line a => { y0 := lit 0, ymax := lit 0, dy := lit 0, dx := p.dx,
                 row := fun _ => lineRow p xo yo zo a }
  | .rectF met f a b => rectFSweep p met f xo yo zo a b
  | .circF met f R => circFSweep p met f xo yo zo R
  | .sphere R Rc => sphereSweep p xo yo zo R Rc

/-- Single row? -/
def Kern.single : Kern F → Bool
  | .line _ => true
  | _ => false

/-- State of a worker when it has just called the serial kernel. -/
def Kern.entry (k : Kern F) (p : Par F) (xo yo zo : F) : KLoc F where
  g := k.geo p xo yo zo
  single := k.single
  err := .none
  pc := if k.clears then .clear 0 else .outer (k.geo p xo yo zo).y0

section Exec
variable (nt : Nat) (ty : IdxTy) (level : ErrorLevel) (att : Option (AttResp F)) (n : Nat)

/-- Column program of a kernel. -/
abbrev kernCol : ColProg F (KLoc F) := effCol (fun _ => kernStep nt ty level att) nt

theorem one_tau {l l' : KLoc F} {c : Nat → F}
    (h : kernStep nt ty level att l = .tau l') : Steps (kernCol nt ty level att) n 1 l c l' c :=
  .more (by simp [effCol, h, Eff.onCol]) .refl

/-- The lossy update. -/
theorem att_steps (x : AttResp F) (g : Sweep F) (sg : Bool) (e : SIRError) (ys xs r : F)
    (it : Int) (ai : F) (d : Nat) : ∀ (i : Nat), i + d = nt → ∀ (c : Nat → F),
    ∃ k, Steps (kernCol nt ty level (some x)) n k
      ⟨g, sg, e, .attRd ys xs r it ai i⟩ c ⟨g, sg, e, .inner ys (xs +. g.dx)⟩
      (fun j => if i ≤ j ∧ j < nt then c j +. ai *. x r it j else c j) := by
  induction d with
  | zero =>
    intro i hi c
    refine ⟨1, .more (l' := ⟨g, sg, e, .inner ys (xs +. g.dx)⟩) (c' := c) ?_ ?_⟩
    · have : ¬ i < nt := by omega
      simp [effCol, kernStep, this, Eff.onCol]
    · have : (fun j => if i ≤ j ∧ j < nt then c j +. ai *. x r it j else c j) = c := by
        funext j; rw [if_neg (by omega)]
      rw [this]; exact .refl
  | succ d ih =>
    intro i hi c
    obtain ⟨k, hk⟩ := ih (i + 1) (by omega)
      (fun j => if j = i then c i +. ai *. x r it i else c j)
    refine ⟨k + 1 + 1, .more (l' := ⟨g, sg, e, .attWr ys xs r it ai i (c i +. ai *. x r it i)⟩)
      (c' := c) ?_ (.more (l' := ⟨g, sg, e, .attRd ys xs r it ai (i + 1)⟩)
      (c' := fun j => if j = i then c i +. ai *. x r it i else c j) ?_ ?_)⟩
    · have h1 : i < nt := by omega
      have h2 : (0 : Int) ≤ (i : Int) ∧ (i : Int) < (nt : Int) := by omega
      simp [effCol, kernStep, h1, Eff.onCol]
    · have h2 : (0 : Int) ≤ (i : Int) ∧ (i : Int) < (nt : Int) := by omega
      simp only [effCol, kernStep, Eff.onCol]
      rw [if_pos h2]; rfl
    · have : (fun j => if i ≤ j ∧ j < nt then c j +. ai *. x r it j else c j) =
          (fun j => if i + 1 ≤ j ∧ j < nt then
            (if j = i then c i +. ai *. x r it i else c j) +. ai *. x r it j
            else (if j = i then c i +. ai *. x r it i else c j)) := by
        funext j
        by_cases h1 : i ≤ j ∧ j < nt
        · rw [if_pos h1]
          by_cases h2 : j = i
          · subst h2; rw [if_neg (by omega), if_pos rfl]
          · rw [if_pos (by omega), if_neg h2]
        · rw [if_neg h1, if_neg (by omega), if_neg (by omega)]
      rw [this]; exact hk

/-- One pass through the inner loop body. -/
theorem deposit_steps (g : Sweep F) (sg : Bool) (e : SIRError) (ys xs : F) (c : Nat → F)
    (hle : le xs (g.row ys).xmax = true) (r : Ctl ((Nat → F) × SIRError))
    (h : deposit (colCtx nt ty level att) ((g.row ys).pt xs) (c, e) = .ok r) :
    match r with
    | .next s => ∃ k, Steps (kernCol nt ty level att) n k
        ⟨g, sg, e, .inner ys xs⟩ c ⟨g, sg, s.2, .inner ys (xs +. g.dx)⟩ s.1
    | .ret s => ∃ k, Evals (kernCol nt ty level att) n k ⟨g, sg, e, .inner ys xs⟩ c s := by
  unfold deposit at h
  have hty : (colCtx nt ty level att).ty = ty := rfl
  have hnt : (colCtx nt ty level att).nt = nt := rfl
  have hlv : (colCtx nt ty level att).level = level := rfl
  rw [hty, hnt, hlv] at h
  cases hcast : castIdx ty (rint ((g.row ys).pt xs).arg) with
  | ub e' => rw [hcast] at h; simp at h
  | fuel => rw [hcast] at h; simp at h
  | ok it =>
    rw [hcast] at h
    simp only [Outcome.bind] at h
    by_cases hr : it < (nt : Int) ∧ it ≥ 0
    · rw [if_pos hr] at h
      obtain ⟨i, rfl⟩ := Int.eq_ofNat_of_zero_le hr.2
      cases att with
      | none =>
        simp only [colCtx, Outcome.ok.injEq] at h
        subst h
        simp only
        refine ⟨3, .more (l' := ⟨g, sg, e, .addRd ys xs i ((g.row ys).pt xs).ai⟩) (c' := c) ?_
          (.more (l' := ⟨g, sg, e, .addWr ys xs i (c i +. ((g.row ys).pt xs).ai)⟩) (c' := c) ?_
          (.more (l' := ⟨g, sg, e, .inner ys (xs +. g.dx)⟩)
            (c' := colAdd i ((g.row ys).pt xs).ai c) ?_ ?_))⟩
        · simp only [effCol, kernStep, hle, hcast]
          simp [hr, Eff.onCol]
        · simp only [effCol, kernStep, Eff.onCol]
          rw [if_pos (by omega)]; rfl
        · simp only [effCol, kernStep, Eff.onCol]
          rw [if_pos (by omega)]
          simp only [Int.toNat_natCast, Outcome.ok.injEq, Prod.mk.injEq, and_true]
          funext j
          simp only [colAdd]
          by_cases hj : j = i
          · subst hj; simp
          · simp [hj]
        · simp only [Int.toNat_natCast]; exact .refl
      | some x =>
        simp only [colCtx, Outcome.ok.injEq] at h
        subst h
        simp only
        obtain ⟨k, hk⟩ := att_steps nt ty level n x g sg e ys xs ((g.row ys).pt xs).r i
          ((g.row ys).pt xs).ai nt 0 (by omega) c
        refine ⟨k + 1, .more (l' := ⟨g, sg, e, .attRd ys xs ((g.row ys).pt xs).r i
          ((g.row ys).pt xs).ai 0⟩) (c' := c) ?_ ?_⟩
        · simp only [effCol, kernStep, hle, hcast]
          simp [hr, Eff.onCol]
        · have : colAtt nt (x ((g.row ys).pt xs).r (i : Int)) ((g.row ys).pt xs).ai c =
              (fun j => if 0 ≤ j ∧ j < nt then
                c j +. ((g.row ys).pt xs).ai *. x ((g.row ys).pt xs).r i j else c j) := by
            funext j; simp [colAtt]
          rw [this]; exact hk
    · rw [if_neg hr] at h
      by_cases hb : oobErr level = .outOfBounds
      · simp only [hb, if_pos, Outcome.ok.injEq] at h
        subst h
        simp only
        refine ⟨1, .last ?_⟩
        simp only [effCol, kernStep, hle, hcast]
        simp [hr, hb, Eff.onCol]
      · simp only [if_neg hb, Outcome.ok.injEq] at h
        subst h
        simp only
        refine ⟨1, one_tau nt ty level att n ?_⟩
        simp only [kernStep, hle, hcast]
        simp [hr, hb]

theorem inner_steps (g : Sweep F) (sg : Bool) (ys : F) (fuel : Nat) :
    ∀ (e : SIRError) (xs : F) (c : Nat → F) (r : Ctl ((Nat → F) × SIRError)),
    innerLoop (colCtx nt ty level att) (g.row ys).pt g.dx (g.row ys).xmax fuel xs (c, e) = .ok r →
    match r with
    | .next s => ∃ k xs', le xs' (g.row ys).xmax = false ∧ Steps (kernCol nt ty level att) n k
        ⟨g, sg, e, .inner ys xs⟩ c ⟨g, sg, s.2, .inner ys xs'⟩ s.1
    | .ret s => ∃ k, Evals (kernCol nt ty level att) n k ⟨g, sg, e, .inner ys xs⟩ c s := by
  induction fuel with
  | zero => intro e xs c r h; simp [innerLoop] at h
  | succ fuel ih =>
    intro e xs c r h
    unfold innerLoop at h
    by_cases hle : le xs (g.row ys).xmax = true
    · rw [if_pos hle] at h
      cases hd : deposit (colCtx nt ty level att) ((g.row ys).pt xs) (c, e) with
      | ub e' => rw [hd] at h; simp at h
      | fuel => rw [hd] at h; simp at h
      | ok q =>
        rw [hd] at h
        have := deposit_steps nt ty level att n g sg e ys xs c hle q hd
        cases q with
        | next s' =>
          obtain ⟨k, hk⟩ := this
          simp only [Outcome.bind] at h
          have h2 := ih s'.2 (xs +. g.dx) s'.1 r h
          cases r with
          | next s =>
            obtain ⟨k2, xs', hx, hk2⟩ := h2
            exact ⟨k + k2, xs', hx, hk.trans hk2⟩
          | ret s =>
            obtain ⟨k2, hk2⟩ := h2
            exact ⟨k + k2, hk.evals hk2⟩
        | ret s' =>
          simp only [Outcome.bind, Outcome.ok.injEq] at h
          subst h
          exact this
    · rw [if_neg hle] at h
      simp only [Outcome.ok.injEq] at h
      subst h
      exact ⟨0, xs, by simpa using hle, .refl⟩

theorem outer_evals (g : Sweep F) (fuel k : Nat) :
    ∀ (e : SIRError) (ys : F) (c : Nat → F) (r : Ctl ((Nat → F) × SIRError)),
    outerLoop (colCtx nt ty level att) g.row g.dx g.dy g.ymax fuel k ys (c, e) = .ok r →
    ∃ j, Evals (kernCol nt ty level att) n j ⟨g, false, e, .outer ys⟩ c
      r.val := by
  induction k with
  | zero => intro e ys c r h; simp [outerLoop] at h
  | succ k ih =>
    intro e ys c r h
    unfold outerLoop at h
    by_cases hle : le ys g.ymax = true
    · rw [if_pos hle] at h
      have h0 : Steps (kernCol nt ty level att) n 1 ⟨g, false, e, .outer ys⟩ c
          ⟨g, false, e, .inner ys (g.row ys).x0⟩ c :=
        one_tau nt ty level att n (by simp [kernStep, hle])
      cases hd : innerLoop (colCtx nt ty level att) (g.row ys).pt g.dx (g.row ys).xmax fuel
          (g.row ys).x0 (c, e) with
      | ub e' => rw [hd] at h; simp at h
      | fuel => rw [hd] at h; simp at h
      | ok q =>
        rw [hd] at h
        have := inner_steps nt ty level att n g false ys fuel e _ c q hd
        cases q with
        | next s' =>
          obtain ⟨k1, xs', hx, hk⟩ := this
          simp only [Outcome.bind] at h
          obtain ⟨j, hj⟩ := ih s'.2 _ s'.1 r h
          have h1 : Steps (kernCol nt ty level att) n 1 ⟨g, false, s'.2, .inner ys xs'⟩ s'.1
              ⟨g, false, s'.2, .outer (ys +. g.dy)⟩ s'.1 :=
            one_tau nt ty level att n (by simp [kernStep, hx])
          exact ⟨_, ((h0.trans hk).trans h1).evals hj⟩
        | ret s' =>
          obtain ⟨k1, hk⟩ := this
          simp only [Outcome.bind, Outcome.ok.injEq] at h
          subst h
          exact ⟨_, h0.evals hk⟩
    · rw [if_neg hle] at h
      simp only [Outcome.ok.injEq] at h
      subst h
      exact ⟨1, .last (by simp [effCol, kernStep, hle, Eff.onCol])⟩

theorem clear_steps (g : Sweep F) (sg : Bool) (e : SIRError) (d : Nat) :
    ∀ (i : Nat), i + d = nt → ∀ (c : Nat → F),
    ∃ k, Steps (kernCol nt ty level att) n k ⟨g, sg, e, .clear i⟩ c ⟨g, sg, e, .clear nt⟩
      (fun j => if i ≤ j ∧ j < nt then lit 0 else c j) := by
  induction d with
  | zero =>
    intro i hi c
    have h1 : i = nt := by omega
    subst h1
    refine ⟨0, ?_⟩
    have : (fun j => if i ≤ j ∧ j < i then lit 0 else c j) = c := by
      funext j; rw [if_neg (by omega)]
    rw [this]; exact .refl
  | succ d ih =>
    intro i hi c
    obtain ⟨k, hk⟩ := ih (i + 1) (by omega) (fun j => if j = i then lit 0 else c j)
    refine ⟨k + 1, .more (l' := ⟨g, sg, e, .clear (i + 1)⟩)
      (c' := fun j => if j = i then lit 0 else c j) ?_ ?_⟩
    · have h1 : i < nt := by omega
      simp [effCol, kernStep, h1, Eff.onCol]
    · have : (fun j => if i ≤ j ∧ j < nt then lit 0 else c j) =
          (fun j => if i + 1 ≤ j ∧ j < nt then lit 0 else (if j = i then lit 0 else c j)) := by
        funext j
        by_cases h1 : i ≤ j ∧ j < nt
        · rw [if_pos h1]
          by_cases h2 : j = i
          · rw [if_neg (by omega), if_pos h2]
          · rw [if_pos (by omega)]
        · rw [if_neg h1, if_neg (by omega), if_neg (by omega)]
      rw [this]; exact hk

theorem finish_ok {M : Type} {x : Outcome (Ctl (M × SIRError))} {r : M × SIRError}
    (h : finish x = .ok r) : ∃ q, x = .ok q ∧ q.val = r := by
  cases x with
  | ok q => cases q <;> simp [finish] at h <;> exact ⟨_, rfl, h⟩
  | ub e => simp [finish] at h
  | fuel => simp [finish] at h

/-- If a serial kernel returns, then so does its small-step program, with the same column and
the same error code. -/
theorem Kern.evals (k : Kern F) (p : Par F) (xo yo zo : F) (fuel : Nat) (c : Nat → F)
    (r : (Nat → F) × SIRError)
    (h : k.onCol nt ty level att p xo yo zo fuel c = .ok r) :
    ∃ j, Evals (kernCol nt ty level att) n j (k.entry p xo yo zo) c r := by
  have hclear : ∀ (g : Sweep F) (sg : Bool), ∃ j, Steps (kernCol nt ty level att) n j
      ⟨g, sg, .none, .clear 0⟩ c ⟨g, sg, .none, .clear nt⟩
      (fun j => if j < nt then lit 0 else c j) := by
    intro g sg
    obtain ⟨j, hj⟩ := clear_steps nt ty level att n g sg .none nt 0 (by omega) c
    exact ⟨j, by simpa using hj⟩
  have h2d : ∀ g : Sweep F,
      runSweep (colCtx nt ty level att) g fuel c = .ok r →
      ∃ j, Evals (kernCol nt ty level att) n j ⟨g, false, .none, .outer g.y0⟩ c r := by
    intro g hg
    obtain ⟨q, hq, hr⟩ := finish_ok hg
    obtain ⟨j, hj⟩ := outer_evals nt ty level att n g fuel fuel _ _ _ _ hq
    exact ⟨j, hr ▸ hj⟩
  have h2dc : ∀ g : Sweep F,
      runSweep (colCtx nt ty level att) g fuel (fun j => if j < nt then lit 0 else c j) = .ok r →
      ∃ j, Evals (kernCol nt ty level att) n j ⟨g, false, .none, .clear 0⟩ c r := by
    intro g hg
    obtain ⟨q, hq, hr⟩ := finish_ok hg
    obtain ⟨j, hj⟩ := outer_evals nt ty level att n g fuel fuel _ _ _ _ hq
    obtain ⟨j0, hj0⟩ := hclear g false
    have h1 : Steps (kernCol nt ty level att) n 1 ⟨g, false, .none, .clear nt⟩
        (fun j => if j < nt then lit 0 else c j) ⟨g, false, .none, .outer g.y0⟩
        (fun j => if j < nt then lit 0 else c j) :=
      one_tau nt ty level att n (by simp [kernStep])
    exact ⟨_, (hj0.trans h1).evals (hr ▸ hj)⟩
  cases k with
  | rect w a b => exact h2d _ h
  | circ w R => exact h2d _ h
  | cylind w a b Rc => exact h2d _ h
  | rectF met f a b => exact h2dc _ h
  | circF met f R => exact h2dc _ h
  | sphere R Rc => exact h2dc _ h
  | line a =>
    simp only [Kern.onCol, Kern.start, Kern.clears] at h
    obtain ⟨q, hq, hr⟩ := finish_ok h
    let g : Sweep F := { y0 := lit 0, ymax := lit 0, dy := lit 0, dx := p.dx,
                         row := fun _ => lineRow p xo yo zo a }
    obtain ⟨j0, hj0⟩ := hclear g true
    have h1 : Steps (kernCol nt ty level att) n 1 ⟨g, true, .none, .clear nt⟩
        (fun j => if j < nt then lit 0 else c j)
        ⟨g, true, .none, .inner g.y0 (g.row g.y0).x0⟩
        (fun j => if j < nt then lit 0 else c j) :=
      one_tau nt ty level att n (by simp [kernStep])
    have h2 := inner_steps nt ty level att n g true g.y0 fuel _ _ _ _ hq
    show ∃ j, Evals (kernCol nt ty level att) n j ⟨g, true, .none, .clear 0⟩ c r
    cases q with
    | next s =>
      obtain ⟨k, xs', hx, hk⟩ := h2
      simp only [Ctl.val] at hr
      subst hr
      have h3 : Evals (kernCol nt ty level att) n 1 ⟨g, true, s.2, .inner g.y0 xs'⟩ s.1
          (s.1, s.2) := .last (by simp [effCol, kernStep, hx, Eff.onCol])
      exact ⟨_, ((hj0.trans h1).trans hk).evals h3⟩
    | ret s =>
      obtain ⟨k, hk⟩ := h2
      simp only [Ctl.val] at hr
      subst hr
      exact ⟨_, (hj0.trans h1).evals hk⟩

end Exec

end Dream
