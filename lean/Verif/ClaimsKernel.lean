import Verif.ErrSpec
import Verif.ClaimsThreads

/-
C09 and C10: memory safety and error level semantics of the serial kernels, for every
arithmetic.
-/

namespace Dream
open Arith

variable {F : Type} [Arith F]

/-! ### C09 -/

/-- C09: whatever the arguments, the arithmetic and the fuel, a kernel whose column lies inside
the output buffer performs no access outside the buffer; if it returns, everything outside its
own column (`base ≤ j < base+nt`) is as before. -/
theorem C09_kernel_safe (k : Kern F) (nt : Nat) (ty : IdxTy) (level : ErrorLevel)
    (att : Option (AttResp F)) (p : Par F) (xo yo zo : F) (fuel base : Nat) (m : Buf F)
    (hb : base + nt ≤ m.size) :
    k.serial nt ty level att p xo yo zo fuel base m ≠ .ub .oob ∧
    ∀ m' e, k.serial nt ty level att p xo yo zo fuel base m = .ok (m', e) →
      m'.size = m.size ∧ ∀ j, (j < base ∨ base + nt ≤ j) → m'.data j = m.data j := by
  rw [Kern.serial_eq _ _ _ _ _ _ _ _ _ _ _ _ hb]
  constructor
  · intro h
    cases hc : k.onCol nt ty level att p xo yo zo fuel (m.getCol base nt) with
    | ok r => rw [hc] at h; simp at h
    | fuel => rw [hc] at h; simp at h
    | ub e =>
      have := Kern.onCol_ub k nt ty level att p xo yo zo fuel _ e hc
      subst this
      rw [hc] at h; simp at h
  · intro m' e h
    rw [Outcome.map_eq_ok] at h
    obtain ⟨q, _, hr⟩ := h
    simp only [liftS, Prod.mk.injEq] at hr
    rw [← hr.1]
    exact ⟨rfl, fun j hj => Buf.setCol_data_out _ _ _ _ _ hj⟩

/-- C09: the result also does not depend on anything outside the kernel's own column: two
matrices that agree on the column give the same code and the same new column. -/
theorem C09_kernel_local (k : Kern F) (nt : Nat) (ty : IdxTy) (level : ErrorLevel)
    (att : Option (AttResp F)) (p : Par F) (xo yo zo : F) (fuel b₁ b₂ : Nat) (m₁ m₂ : Buf F)
    (h₁ : b₁ + nt ≤ m₁.size) (h₂ : b₂ + nt ≤ m₂.size)
    (heq : ∀ j, j < nt → m₁.data (b₁ + j) = m₂.data (b₂ + j)) (m₁' : Buf F) (e : SIRError)
    (h : k.serial nt ty level att p xo yo zo fuel b₁ m₁ = .ok (m₁', e)) :
    ∃ m₂', k.serial nt ty level att p xo yo zo fuel b₂ m₂ = .ok (m₂', e) ∧
      ∀ j, j < nt → m₂'.data (b₂ + j) = m₁'.data (b₁ + j) := by
  rw [Kern.serial_eq _ _ _ _ _ _ _ _ _ _ _ _ h₁] at h
  rw [Kern.serial_eq _ _ _ _ _ _ _ _ _ _ _ _ h₂]
  have hc : m₂.getCol b₂ nt = m₁.getCol b₁ nt := by
    funext j
    simp only [Buf.getCol]
    split
    · next hj => exact (heq j hj).symm
    · rfl
  rw [hc]
  rw [Outcome.map_eq_ok] at h
  obtain ⟨q, hq, hr⟩ := h
  simp only [liftS, Prod.mk.injEq] at hr
  refine ⟨m₂.setCol b₂ nt q.1, ?_, ?_⟩
  · rw [hq]; simp [liftS, hr.2]
  · intro j hj
    rw [← hr.1, Buf.setCol_data_in _ _ _ _ _ hj, Buf.setCol_data_in _ _ _ _ _ hj]

/-- Indices held in the local state of a kernel are inside the column. -/
def KLoc.Safe (nt : Nat) (l : KLoc F) : Prop :=
  match l.pc with
  | .addRd _ _ it _ => 0 ≤ it ∧ it < (nt : Int)
  | .addWr _ _ it _ => 0 ≤ it ∧ it < (nt : Int)
  | .attWr _ _ _ _ _ i _ => i < nt
  | _ => True

theorem kernStep_safe (nt : Nat) (ty : IdxTy) (level : ErrorLevel) (att : Option (AttResp F))
    (l : KLoc F) (hl : l.Safe nt) :
    match kernStep nt ty level att l with
    | .tau l' => l'.Safe nt
    | .ret _ => True
    | .bad e => e = .cast
    | .rd j k => (0 ≤ j ∧ j < (nt : Int)) ∧ ∀ x, (k x).Safe nt
    | .wr j _ l' => (0 ≤ j ∧ j < (nt : Int)) ∧ l'.Safe nt := by
  obtain ⟨g, sg, e, pc⟩ := l
  cases pc with
  | clear i =>
    simp only [kernStep]
    by_cases h : i < nt
    · rw [if_pos h]; exact ⟨by omega, trivial⟩
    · rw [if_neg h]; cases sg <;> exact trivial
  | outer ys =>
    simp only [kernStep]
    cases le ys g.ymax <;> exact trivial
  | inner ys xs =>
    simp only [kernStep]
    by_cases hle : le xs (g.row ys).xmax = true
    · rw [if_pos hle]
      cases hc : castIdx ty (rint ((g.row ys).pt xs).arg) with
      | ub e' =>
        simp only
        cases hr : rint ((g.row ys).pt xs).arg with
        | none => rw [hr] at hc; simp [castIdx] at hc; exact hc.symm
        | some i =>
          rw [hr] at hc
          simp only [castIdx] at hc
          split at hc
          · simp at hc
          · simp only [Outcome.ub.injEq] at hc; exact hc.symm
      | fuel => simp
      | ok it =>
        simp only
        by_cases hr : it < (nt : Int) ∧ it ≥ 0
        · rw [if_pos hr]
          cases att with
          | none => exact ⟨hr.2, hr.1⟩
          | some x => exact trivial
        · rw [if_neg hr]
          by_cases hb : oobErr level = .outOfBounds
          · rw [if_pos hb]; exact trivial
          · rw [if_neg hb]; exact trivial
    · rw [if_neg hle]
      cases sg <;> exact trivial
  | addRd ys xs it ai => exact ⟨hl, fun _ => hl⟩
  | addWr ys xs it x => exact ⟨hl, trivial⟩
  | attRd ys xs r it ai i =>
    simp only [kernStep]
    by_cases h : i < nt
    · rw [if_pos h]; exact ⟨by omega, fun _ => h⟩
    · rw [if_neg h]; exact trivial
  | attWr ys xs r it ai i x =>
    have hl' : i < nt := hl
    exact ⟨by omega, trivial⟩

/-- What holds of the whole process in every state, without any assumption on the numbers. -/
structure SysSafe (D : SirCall F) (nth : Nat) (m : Buf F) (s : Sys F (KLoc F)) : Prop where
  size : s.mem.size = m.size
  ws : ∀ w, (s.ws w).stop ≤ D.No ∧
    match (s.ws w).pc with
    | .run l => (s.ws w).n < (s.ws w).stop ∧ l.Safe D.nt
    | .signal _ => (s.ws w).n < (s.ws w).stop
    | .check => (s.ws w).n < (s.ws w).stop
    | _ => True

omit [Arith F] in
theorem SysSafe.setW {D : SirCall F} {nth : Nat} {m : Buf F} {s s1 : Sys F (KLoc F)}
    (h : SysSafe D nth m s) (hs : s1.mem.size = s.mem.size) (hw : s1.ws = s.ws) (w : Nat)
    (x : Worker (KLoc F))
    (hx : x.stop ≤ D.No ∧
      match x.pc with
      | .run l => x.n < x.stop ∧ l.Safe D.nt
      | .signal _ => x.n < x.stop
      | .check => x.n < x.stop
      | _ => True) : SysSafe D nth m (s1.setW w x) where
  size := by rw [← h.size, ← hs]; rfl
  ws := by
    intro v
    simp only [Sys.setW]
    by_cases hv : v = w
    · simp only [if_pos hv]; exact hx
    · simp only [if_neg hv, hw]; exact h.ws v

theorem entry_safe (k : Kern F) (p : Par F) (xo yo zo : F) (nt : Nat) :
    (k.entry p xo yo zo).Safe nt := by
  simp only [Kern.entry, KLoc.Safe]
  cases k.clears <;> exact trivial

/-- A worker step keeps `SysSafe` and is no access outside a buffer. -/
theorem step_safe {D : SirCall F} {nth : Nat} {m : Buf F} (hsz : D.Sized m)
    {s : Sys F (KLoc F)} (h : SysSafe D nth m s) (w : Nat) :
    match stepWorker D.task w s with
    | .ok s' => SysSafe D nth m s'
    | .ub e => e = .cast
    | .fuel => True := by
  have hw := h.ws w
  unfold stepWorker
  generalize hx : s.ws w = x at hw
  obtain ⟨n, stop, pc, err⟩ := x
  cases pc with
  | done => exact h
  | fetch =>
    simp only
    by_cases hn : n < stop
    · rw [if_pos hn]
      obtain ⟨r, hr⟩ := SirCall.inputs_defined hsz n (Nat.lt_of_lt_of_le hn hw.1)
      obtain ⟨xo, yo, zo, d⟩ := r
      have hb : D.task.begin n = .ok (D.k.entry { D.p with delay := d } xo yo zo) := by
        simp [SirCall.task, effTask, hr]
      rw [hb]
      exact h.setW rfl rfl w _ ⟨hw.1, hn, entry_safe _ _ _ _ _ _⟩
    · rw [if_neg hn]
      exact h.setW rfl rfl w _ ⟨hw.1, trivial⟩
  | run l =>
    simp only at hw ⊢
    have hm : D.task.micro n l s.mem =
      (kernStep D.nt D.ty D.level D.att l).onBuf (n * D.nt) s.mem := rfl
    rw [hm]
    have hst := kernStep_safe D.nt D.ty D.level D.att l hw.2.2
    have hb : n * D.nt + D.nt ≤ s.mem.size := by
      rw [h.size, hsz.out]
      have : (n + 1) * D.nt ≤ D.No * D.nt := Nat.mul_le_mul_right _ (by omega)
      rw [Nat.add_mul, Nat.one_mul] at this
      exact this
    cases hk : kernStep D.nt D.ty D.level D.att l with
    | tau l' =>
      rw [hk] at hst
      exact h.setW rfl rfl w _ ⟨hw.1, hw.2.1, hst⟩
    | ret e => exact h.setW rfl rfl w _ ⟨hw.1, hw.2.1⟩
    | bad e => rw [hk] at hst; exact hst
    | rd j k =>
      rw [hk] at hst
      simp only at hst
      simp only [Eff.onBuf, Buf.read]
      have hj : 0 ≤ ((n * D.nt : Nat) : Int) + j ∧
          ((n * D.nt : Nat) : Int) + j < (s.mem.size : Int) := by
        obtain ⟨⟨h1, h2⟩, _⟩ := hst
        generalize n * D.nt = q at *
        omega
      rw [if_pos hj]
      exact h.setW rfl rfl w _ ⟨hw.1, hw.2.1, hst.2 _⟩
    | wr j x l' =>
      rw [hk] at hst
      simp only at hst
      simp only [Eff.onBuf, Buf.write]
      have hj : 0 ≤ ((n * D.nt : Nat) : Int) + j ∧
          ((n * D.nt : Nat) : Int) + j < (s.mem.size : Int) := by
        obtain ⟨⟨h1, h2⟩, _⟩ := hst
        generalize n * D.nt = q at *
        omega
      rw [if_pos hj]
      exact h.setW (s1 := { s with mem := { s.mem with data := fun i => if i = (((n * D.nt : Nat) : Int) + j).toNat then x else s.mem.data i } }) rfl rfl w
        ⟨n, stop, .run l', err⟩ ⟨hw.1, hw.2.1, hst.2⟩
  | signal e =>
    exact h.setW (s1 := { s with running := if e = SIRError.outOfBounds then false else s.running }) rfl rfl w ⟨n, stop, .check, err⟩ hw
  | check =>
    simp only
    cases hr : s.running with
    | true => exact h.setW rfl rfl w _ ⟨hw.1, trivial⟩
    | false => exact h.setW rfl rfl w _ ⟨hw.1, trivial⟩

/-- C09 for the threaded drivers: with argument buffers of the right sizes no schedule, with any
number of workers, ever accesses memory outside the arguments or the output matrix, whatever
the numbers in them (the only undefined behaviour left is the conversion of an arrival index
that is no representable integer). -/
theorem C09_driver_safe (D : SirCall F) (m : Buf F) (hs : D.Sized m) (nth : Nat) (h1 : 1 ≤ nth)
    (as : List Act) :
    exec D.task as (initSys D.No nth m) ≠ .ub .oob ∧
    exec D.task as (initSys D.No nth m) ≠ .ub .null := by
  have h0 : SysSafe D nth m (initSys D.No nth m : Sys F (KLoc F)) := by
    refine ⟨rfl, fun w => ?_⟩
    simp only [initSys]
    by_cases hw : w < nth
    · rw [if_pos hw]
      refine ⟨?_, trivial⟩
      have := rangeStart_le D.No nth (w + 1) h1 (by omega)
      rwa [← rangeStop_eq] at this
    · rw [if_neg hw]; exact ⟨Nat.zero_le _, trivial⟩
  have key : ∀ (as : List Act) (s : Sys F (KLoc F)), SysSafe D nth m s →
      match exec D.task as s with
      | .ub e => e = .cast
      | _ => True := by
    intro as
    induction as with
    | nil => intro s _; trivial
    | cons a as ih =>
      intro s hsafe
      simp only [exec]
      cases a with
      | abort =>
        simp only [stepSys, Outcome.bind]
        exact ih _ ⟨hsafe.size, hsafe.ws⟩
      | step w =>
        have := step_safe hs hsafe w
        simp only [stepSys]
        cases hst : stepWorker D.task w s with
        | ok s' => rw [hst] at this; exact ih s' this
        | ub e => rw [hst] at this; exact this
        | fuel => exact trivial
  have := key as _ h0
  constructor <;> intro h <;> rw [h] at this <;> simp at this

section
attribute [local instance] toyArith
-- the hypotheses of C09 are met by a call with a nonsensical step size
example : ({ toyCall .warn with p := { dx := 0, dy := -3, dt := 0, delay := 7, v := 1, cp := 0 } }
    : SirCall Int).Sized toyOut := ⟨rfl, rfl, rfl⟩
end

/-! ### C10 -/

/-- Contribution of surface point `p` to sample `i` with current value `s`: the lossless
kernels add the amplitude to the sample the point arrives at, the lossy ones add the amplitude
times the attenuation response to every sample. -/
def contribution (att : Option (AttResp F)) (i : Nat) (s : F) (p : Pt F) : F :=
  match att with
  | none => if p.idx = (i : Int) then s +. p.ai else s
  | some x => s +. p.ai *. x p.r p.idx i

/-- Value of sample `i` of the column when the loops start: line, focused and spherical kernels
clear the column, the others accumulate. -/
def Kern.initial (k : Kern F) (base : Nat) (m : Buf F) (i : Nat) : F :=
  if k.clears then lit 0 else m.data (base + i)

theorem applyAll_contribution (nt : Nat) (att : Option (AttResp F)) (ps : List (Pt F))
    (hr : ∀ p ∈ ps, p.inRange nt = true) (c : Nat → F) (i : Nat) (hi : i < nt) :
    applyAll nt att ps c i = ps.foldl (contribution att i) (c i) := by
  cases att with
  | none => exact applyAll_none nt ps hr c i
  | some x => exact applyAll_some nt x ps c i hi

theorem start_initial (k : Kern F) (nt base : Nat) (m : Buf F) (i : Nat) (hi : i < nt) :
    k.start nt (m.getCol base nt) i = k.initial base m i := by
  simp only [Kern.start, Kern.initial]
  cases k.clears <;> simp [hi, Buf.getCol]

section
variable (k : Kern F) (nt : Nat) (ty : IdxTy) (level : ErrorLevel)
    (att : Option (AttResp F)) (p : Par F) (xo yo zo : F) (fuel base : Nat) (m : Buf F)
    (hb : base + nt ≤ m.size)
    (ps : List (Pt F)) (hps : k.points p xo yo zo fuel = some ps)
    (hcast : ∀ q ∈ ps, q.castOk ty)
include hb hps hcast

/-- C10, levels 'ignore' and 'warn' (and 'none'): the kernel returns; the code is `none` if all
arrival indices are in range and the code of the level otherwise; every in-range contribution
has been added, in loop order, and nothing else. -/
theorem C10_ignore_warn (hl : level = .ignore ∨ level = .warn ∨ level = .none) :
    ∃ m', k.serial nt ty level att p xo yo zo fuel base m =
        .ok (m', if ps.all (Pt.inRange nt) then .none else codeOf level) ∧
      ∀ i, i < nt → m'.data (base + i) =
        (ps.filter (Pt.inRange nt)).foldl (contribution att i) (k.initial base m i) := by
  rw [← oobErr_eq]
  have hl' : oobErr level ≠ .outOfBounds := by
    rcases hl with h | h | h <;> rw [h] <;> simp [oobErr]
  rw [Kern.serial_eq _ _ _ _ _ _ _ _ _ _ _ _ hb,
    Kern.onCol_points _ _ _ _ _ _ _ _ _ _ _ ps hps, runPts_continue nt ty level att hl' ps hcast]
  refine ⟨_, rfl, ?_⟩
  intro i hi
  simp only
  rw [Buf.setCol_data_in _ _ _ _ _ hi,
    applyAll_contribution nt att _ (fun q hq => (List.mem_filter.mp hq).2) _ i hi,
    start_initial k nt base m i hi]

/-- C10, levels 'stop' and 'parallel stop': the kernel returns; the code is `none` if all
arrival indices are in range and `out_of_bounds` otherwise; exactly the contributions before
the first out-of-range point have been added. -/
theorem C10_stop (hl : level = .stop ∨ level = .parallelStop) :
    ∃ m', k.serial nt ty level att p xo yo zo fuel base m =
        .ok (m', if ps.all (Pt.inRange nt) then .none else .outOfBounds) ∧
      ∀ i, i < nt → m'.data (base + i) =
        (ps.takeWhile (Pt.inRange nt)).foldl (contribution att i) (k.initial base m i) := by
  have hl' : oobErr level = .outOfBounds := by
    rcases hl with h | h <;> rw [h] <;> simp [oobErr]
  rw [Kern.serial_eq _ _ _ _ _ _ _ _ _ _ _ _ hb,
    Kern.onCol_points _ _ _ _ _ _ _ _ _ _ _ ps hps, runPts_stop nt ty level att hl' ps hcast]
  have htw : ∀ q ∈ ps.takeWhile (Pt.inRange nt), q.inRange nt = true := by
    intro q hq
    have := List.all_takeWhile (l := ps) (p := Pt.inRange nt)
    rw [List.all_eq_true] at this
    exact this q hq
  cases ha : ps.all (Pt.inRange nt) with
  | true =>
    refine ⟨_, rfl, ?_⟩
    intro i hi
    have htake : ps.takeWhile (Pt.inRange nt) = ps := by
      have : ∀ l : List (Pt F), l.all (Pt.inRange nt) = true →
          l.takeWhile (Pt.inRange nt) = l := by
        intro l
        induction l with
        | nil => intro _; rfl
        | cons q l ih =>
          intro h
          simp only [List.all_cons, Bool.and_eq_true] at h
          rw [List.takeWhile_cons_of_pos h.1, ih h.2]
      exact this ps ha
    rw [htake] at htw ⊢
    simp only
    rw [Buf.setCol_data_in _ _ _ _ _ hi, applyAll_contribution nt att _ htw _ i hi,
      start_initial k nt base m i hi]
  | false =>
    refine ⟨_, rfl, ?_⟩
    intro i hi
    simp only
    rw [Buf.setCol_data_in _ _ _ _ _ hi, applyAll_contribution nt att _ htw _ i hi,
      start_initial k nt base m i hi]

end

section
attribute [local instance] toyArith
-- the hypotheses of C10: the loops of a 2x2 rectangle visit four points
example : ∃ ps, (Kern.rect 1 4 4 : Kern Int).points
    { dx := 2, dy := 2, dt := 1, delay := 0, v := 100, cp := 1000 } 0 0 5 5 = some ps ∧
    ps.length = 4 ∧ (∀ q ∈ ps, q.castOk .signed) ∧ ps.all (Pt.inRange 12) = true ∧
    ps.all (Pt.inRange 5) = false := by
  refine ⟨_, rfl, rfl, ?_, by decide, by decide⟩
  intro q hq
  simp only [List.mem_cons, List.not_mem_nil, or_false, List.map,
    List.cons_append, List.nil_append] at hq
  rcases hq with rfl | rfl | rfl | rfl <;> exact ⟨_, rfl, by decide⟩
end

end Dream
