import Verif.ClaimsReal
import Verif.ClaimsArr

/-
Superposition of element responses (exact arithmetic): scaling the amplitudes of a kernel scales
what it adds to the column, for every error level, with and without attenuation.
-/

namespace Dream
open Arith

/-- `c0 + w * c`, sample by sample. -/
def affine (c0 : ℕ → ℝ) (w : ℝ) (c : ℕ → ℝ) : ℕ → ℝ := fun i => c0 i + w * c i

section
variable (nt : ℕ) (ty : IdxTy) (level : ErrorLevel) (att : Option (AttResp ℝ))
  (c0 : ℕ → ℝ) (w : ℝ)

theorem colAdd_affine (it : ℕ) (ai : ℝ) (c : ℕ → ℝ) :
    colAdd it (w * ai) (affine c0 w c) = affine c0 w (colAdd it ai c) := by
  funext i
  simp only [colAdd, affine, r_add]
  split <;> ring

theorem colAtt_affine (x : ℕ → ℝ) (ai : ℝ) (c : ℕ → ℝ) :
    colAtt nt x (w * ai) (affine c0 w c) = affine c0 w (colAtt nt x ai c) := by
  funext i
  simp only [colAtt, affine, r_add, r_mul]
  split <;> ring

theorem deposit_affine (p : Pt ℝ) (s : (ℕ → ℝ) × SIRError) :
    deposit (colCtx nt ty level att) (p.scale w) (liftS (affine c0 w) s) =
      (deposit (colCtx nt ty level att) p s).map (Ctl.map (liftS (affine c0 w))) := by
  unfold deposit
  have h1 : (p.scale w).arg = p.arg := rfl
  have h2 : (p.scale w).r = p.r := rfl
  have h3 : (p.scale w).ai = w * p.ai := rfl
  rw [h1, h2, h3]
  cases hc : castIdx (colCtx nt ty level att).ty (rint p.arg) with
  | ok it =>
    simp only [Outcome.bind]
    by_cases hr : it < ((colCtx nt ty level att).nt : Int) ∧ it ≥ 0
    · rw [if_pos hr, if_pos hr]
      cases att with
      | none => simp only [colCtx, liftS, colAdd_affine, Outcome.map, Ctl.map]
      | some x => simp only [colCtx, liftS, colAtt_affine, Outcome.map, Ctl.map]
    · rw [if_neg hr, if_neg hr]
      split <;> rfl
  | ub e => rfl
  | fuel => rfl

theorem innerLoop_affine (pt : ℝ → Pt ℝ) (dx xmax : ℝ) (n : ℕ) (xs : ℝ)
    (s : (ℕ → ℝ) × SIRError) :
    innerLoop (colCtx nt ty level att) (fun x => (pt x).scale w) dx xmax n xs
        (liftS (affine c0 w) s) =
      (innerLoop (colCtx nt ty level att) pt dx xmax n xs s).map
        (Ctl.map (liftS (affine c0 w))) := by
  induction n generalizing xs s with
  | zero => rfl
  | succ n ih =>
    unfold innerLoop
    by_cases hx : le xs xmax
    · rw [if_pos hx, if_pos hx, deposit_affine]
      cases deposit (colCtx nt ty level att) (pt xs) s with
      | ok k =>
        cases k with
        | next s' => exact ih (xs +. dx) s'
        | ret s' => rfl
      | ub e => rfl
      | fuel => rfl
    · rw [if_neg hx, if_neg hx]; rfl

theorem outerLoop_affine (g : Sweep ℝ) (fuel n : ℕ) (ys : ℝ) (s : (ℕ → ℝ) × SIRError) :
    outerLoop (colCtx nt ty level att) (g.scale w).row g.dx g.dy g.ymax fuel n ys
        (liftS (affine c0 w) s) =
      (outerLoop (colCtx nt ty level att) g.row g.dx g.dy g.ymax fuel n ys s).map
        (Ctl.map (liftS (affine c0 w))) := by
  induction n generalizing ys s with
  | zero => rfl
  | succ n ih =>
    unfold outerLoop
    by_cases hy : le ys g.ymax
    · rw [if_pos hy, if_pos hy]
      have := innerLoop_affine nt ty level att c0 w (g.row ys).pt g.dx (g.row ys).xmax fuel
        (g.row ys).x0 s
      have e : innerLoop (colCtx nt ty level att) ((g.scale w).row ys).pt g.dx
          ((g.scale w).row ys).xmax fuel ((g.scale w).row ys).x0 (liftS (affine c0 w) s) = _ := this
      rw [e]
      cases innerLoop (colCtx nt ty level att) (g.row ys).pt g.dx (g.row ys).xmax fuel
          (g.row ys).x0 s with
      | ok k =>
        cases k with
        | next s' => exact ih (ys +. g.dy) s'
        | ret s' => rfl
      | ub e => rfl
      | fuel => rfl
    · rw [if_neg hy, if_neg hy]; rfl

theorem runSweep_affine (g : Sweep ℝ) (fuel : ℕ) (c : ℕ → ℝ) :
    runSweep (colCtx nt ty level att) (g.scale w) fuel (affine c0 w c) =
      (runSweep (colCtx nt ty level att) g fuel c).map (liftS (affine c0 w)) := by
  unfold runSweep
  have := outerLoop_affine nt ty level att c0 w g fuel fuel g.y0 (c, SIRError.none)
  rw [← finish_map, ← this]
  rfl

theorem runRow_affine (row : Row ℝ) (dx : ℝ) (fuel : ℕ) (c : ℕ → ℝ) :
    runRow (colCtx nt ty level att) { row with pt := fun x => (row.pt x).scale w } dx fuel
        (affine c0 w c) =
      (runRow (colCtx nt ty level att) row dx fuel c).map (liftS (affine c0 w)) := by
  unfold runRow
  have := innerLoop_affine nt ty level att c0 w row.pt dx row.xmax fuel row.x0 (c, SIRError.none)
  rw [← finish_map, ← this]
  rfl

end

theorem rectSweep_scale (p : Par ℝ) (c w xo yo zo a b : ℝ) :
    rectSweep { p with v := c * p.v } w xo yo zo a b = (rectSweep p w xo yo zo a b).scale c := by
  simp only [rectSweep, Sweep.scale, Pt.scale, r_mul]
  congr; funext ys; congr; funext xs; congr
  rw [← amp_scale]; congr 1; ring

theorem circSweep_scale (p : Par ℝ) (c w xo yo zo R : ℝ) :
    circSweep { p with v := c * p.v } w xo yo zo R = (circSweep p w xo yo zo R).scale c := by
  simp only [circSweep, Sweep.scale, Pt.scale, r_mul]
  congr; funext ys; congr; funext xs; congr
  rw [← amp_scale]; congr 1; ring

theorem cylindSweep_scale (p : Par ℝ) (c w xo yo zo a b Rc : ℝ) :
    cylindSweep { p with v := c * p.v } w xo yo zo a b Rc =
      (cylindSweep p w xo yo zo a b Rc).scale c := by
  simp only [cylindSweep, Sweep.scale, Pt.scale, r_mul, r_div]
  congr; funext ys; congr; funext xs; congr 1
  ring

theorem lineRow_scale (p : Par ℝ) (c xo yo zo a : ℝ) :
    lineRow { p with v := c * p.v } xo yo zo a =
      { lineRow p xo yo zo a with pt := fun x => ((lineRow p xo yo zo a).pt x).scale c } := by
  simp only [lineRow, Pt.scale]
  congr; funext xs; congr
  rw [← amp_scale]

theorem rectFSweep_scale (p : Par ℝ) (c : ℝ) (met : FocusMet) (f xo yo zo a b : ℝ) :
    rectFSweep { p with v := c * p.v } met f xo yo zo a b =
      (rectFSweep p met f xo yo zo a b).scale c := by
  simp only [rectFSweep, Sweep.scale, Pt.scale]
  congr; funext ys; congr; funext xs; congr
  rw [← amp_scale]

theorem circFSweep_scale (p : Par ℝ) (c : ℝ) (met : FocusMet) (f xo yo zo R : ℝ) :
    circFSweep { p with v := c * p.v } met f xo yo zo R =
      (circFSweep p met f xo yo zo R).scale c := by
  simp only [circFSweep, Sweep.scale, Pt.scale]
  congr; funext ys; congr; funext xs; congr
  rw [← amp_scale]

theorem sphereSweep_scale (p : Par ℝ) (c xo yo zo R Rc : ℝ) :
    sphereSweep { p with v := c * p.v } xo yo zo R Rc =
      (sphereSweep p xo yo zo R Rc).scale c := by
  simp only [sphereSweep, Sweep.scale, Pt.scale]
  congr; funext ys; congr; funext xs; congr
  rw [← amp_scale]

/-- The zero column. -/
def zeroCol : ℕ → ℝ := fun _ => 0

theorem affine_zero (c0 : ℕ → ℝ) (w : ℝ) : affine c0 w zeroCol = c0 := by
  funext i; simp [affine, zeroCol]

theorem start_zero (k : Kern ℝ) (nt : ℕ) : k.start nt zeroCol = zeroCol := by
  funext i; simp only [Kern.start]; split <;> simp [zeroCol]

/-- A kernel run with velocity `w * v` adds `w` times what it computes for `v` on a zero
column. -/
theorem Kern.onCol_affine (k : Kern ℝ) (nt : ℕ) (ty : IdxTy) (level : ErrorLevel)
    (att : Option (AttResp ℝ)) (p : Par ℝ) (w xo yo zo : ℝ) (fuel : ℕ) (c : ℕ → ℝ) :
    k.onCol nt ty level att { p with v := w * p.v } xo yo zo fuel c =
      (k.onCol nt ty level att p xo yo zo fuel zeroCol).map
        (liftS (affine (k.start nt c) w)) := by
  have hz := affine_zero (k.start nt c) w
  have hs := start_zero k nt
  cases k with
  | rect =>
    simp only [Kern.onCol, rectSweep_scale] at *
    rw [hs, ← runSweep_affine, hz]
  | circ =>
    simp only [Kern.onCol, circSweep_scale] at *
    rw [hs, ← runSweep_affine, hz]
  | cylind =>
    simp only [Kern.onCol, cylindSweep_scale] at *
    rw [hs, ← runSweep_affine, hz]
  | line =>
    simp only [Kern.onCol, lineRow_scale] at *
    rw [hs, ← runRow_affine, hz]
  | rectF =>
    simp only [Kern.onCol, rectFSweep_scale] at *
    rw [hs, ← runSweep_affine, hz]
  | circF =>
    simp only [Kern.onCol, circFSweep_scale] at *
    rw [hs, ← runSweep_affine, hz]
  | sphere =>
    simp only [Kern.onCol, sphereSweep_scale] at *
    rw [hs, ← runSweep_affine, hz]

/-- The apodization weight of an element acts like a factor on the velocity. -/
theorem ArrKern.kern_weight (K : ArrKern ℝ) (nt : ℕ) (ty : IdxTy) (level : ErrorLevel)
    (att : Option (AttResp ℝ)) (p : Par ℝ) (w xo yo zo : ℝ) (fuel : ℕ) (c : ℕ → ℝ) :
    (K.kern w).onCol nt ty level att p xo yo zo fuel c =
      (K.kern 1).onCol nt ty level att { p with v := w * p.v } xo yo zo fuel c := by
  cases K with
  | rect a b =>
    simp only [ArrKern.kern, Kern.onCol, Kern.start, Kern.clears]
    congr 1
    simp only [rectSweep, r_mul, one_mul]
  | circ R =>
    simp only [ArrKern.kern, Kern.onCol, Kern.start, Kern.clears]
    congr 1
    simp only [circSweep, r_mul, one_mul]
  | cylind a b Rc =>
    simp only [ArrKern.kern, Kern.onCol, Kern.start, Kern.clears]
    congr 1
    simp only [cylindSweep, r_mul, one_mul]

/-- A zero filled buffer of `nt` samples. -/
def zeroBuf (nt : ℕ) : Buf ℝ := { size := nt, data := fun _ => 0 }

theorem serial_zeroBuf (k : Kern ℝ) (nt : ℕ) (ty : IdxTy) (level : ErrorLevel)
    (att : Option (AttResp ℝ)) (p : Par ℝ) (xo yo zo : ℝ) (fuel : ℕ) :
    k.serial nt ty level att p xo yo zo fuel 0 (zeroBuf nt) =
      (k.onCol nt ty level att p xo yo zo fuel zeroCol).map
        (liftS ((zeroBuf nt).setCol 0 nt)) := by
  rw [Kern.serial_eq _ _ _ _ _ _ _ _ _ _ _ _ (by simp [zeroBuf])]
  congr 2
  funext i
  simp [Buf.getCol, zeroBuf, zeroCol]

/-- C13, linearity for every kernel, error level and attenuation: let `(r, e)` be the result for
velocity `v` on a zero filled buffer.  Then for velocity `c * v` the kernel returns the same code
and leaves, in every sample of its column, the starting value plus `c` times the sample of `r`;
also when it stops early. -/
theorem C13_linear_all_levels (k : Kern ℝ) (nt : ℕ) (ty : IdxTy) (level : ErrorLevel)
    (att : Option (AttResp ℝ)) (p : Par ℝ) (xo yo zo c : ℝ) (fuel base : ℕ) (m : Buf ℝ)
    (hb : base + nt ≤ m.size) (r : Buf ℝ) (e : SIRError)
    (h : k.serial nt ty level att p xo yo zo fuel 0 (zeroBuf nt) = .ok (r, e)) :
    ∃ m', k.serial nt ty level att { p with v := c * p.v } xo yo zo fuel base m = .ok (m', e) ∧
      ∀ i, i < nt → m'.data (base + i) = k.initial base m i + c * r.data i := by
  rw [serial_zeroBuf] at h
  cases ho : k.onCol nt ty level att p xo yo zo fuel zeroCol with
  | ub _ => rw [ho] at h; simp at h
  | fuel => rw [ho] at h; simp at h
  | ok s =>
    rw [ho] at h
    simp only [Outcome.map, Outcome.ok.injEq, liftS, Prod.mk.injEq] at h
    obtain ⟨rfl, rfl⟩ := h
    rw [Kern.serial_eq _ _ _ _ _ _ _ _ _ _ _ _ hb, Kern.onCol_affine, ho]
    refine ⟨_, rfl, fun i hi => ?_⟩
    simp only [liftS]
    rw [Buf.setCol_data_in _ _ _ _ _ hi]
    have := Buf.setCol_data_in (zeroBuf nt) 0 nt s.1 i hi
    rw [Nat.zero_add] at this
    rw [this]
    simp only [affine]
    rw [start_initial k nt base m i hi]

/-- One element adds its weight times its unweighted response. -/
theorem ArrKern.call_weight (K : ArrKern ℝ) (nt : ℕ) (ty : IdxTy) (level : ErrorLevel)
    (att : Option (AttResp ℝ)) (p : Par ℝ) (xo yo zo : ℝ) (e : Elem ℝ) (fuel base : ℕ)
    (m : Buf ℝ) (hb : base + nt ≤ m.size) (r : Buf ℝ) (code : SIRError)
    (h : (K.kern 1).serial nt ty level att { p with delay := p.delay - e.foc - e.steer }
      (xo - e.gx) (yo - e.gy) (zo - e.gz) fuel 0 (zeroBuf nt) = .ok (r, code)) :
    ∃ m', K.call nt ty level att p xo yo zo e fuel base m = .ok (m', code) ∧
      m'.size = m.size ∧
      (∀ i, i < nt → m'.data (base + i) = m.data (base + i) + e.weight * r.data i) ∧
      ∀ j, j < base ∨ base + nt ≤ j → m'.data j = m.data j := by
  rw [serial_zeroBuf] at h
  cases ho : (K.kern 1).onCol nt ty level att { p with delay := p.delay - e.foc - e.steer }
      (xo - e.gx) (yo - e.gy) (zo - e.gz) fuel zeroCol with
  | ub _ => rw [ho] at h; simp at h
  | fuel => rw [ho] at h; simp at h
  | ok s =>
    rw [ho] at h
    simp only [Outcome.map, Outcome.ok.injEq, liftS, Prod.mk.injEq] at h
    obtain ⟨rfl, rfl⟩ := h
    unfold ArrKern.call
    rw [Kern.serial_eq _ _ _ _ _ _ _ _ _ _ _ _ hb]
    simp only [r_sub]
    rw [ArrKern.kern_weight]
    have := Kern.onCol_affine (K.kern 1) nt ty level att
      { p with delay := p.delay - e.foc - e.steer } e.weight
      (xo - e.gx) (yo - e.gy) (zo - e.gz) fuel (m.getCol base nt)
    rw [this, ho]
    refine ⟨_, rfl, rfl, fun i hi => ?_, fun j hj => ?_⟩
    · simp only [liftS]
      rw [Buf.setCol_data_in _ _ _ _ _ hi]
      have h2 := Buf.setCol_data_in (zeroBuf nt) 0 nt s.1 i hi
      rw [Nat.zero_add] at h2
      rw [h2]
      simp only [affine]
      congr 1
      cases K <;> simp [ArrKern.kern, Kern.start, Kern.clears, Buf.getCol, hi]
    · simp only [liftS]
      exact Buf.setCol_data_out _ _ _ _ _ hj

theorem arrLoop_sum (A : ArrPar ℝ) (K : ArrKern ℝ) (d : Dims ℝ) (nt : ℕ)
    (ty : IdxTy) (level : ErrorLevel) (att : Option (AttResp ℝ)) (p : Par ℝ) (xo yo zo : ℝ)
    (fuel base : ℕ) (el : ℕ → Elem ℝ) (resp : ℕ → Buf ℝ) (code : ℕ → SIRError) :
    ∀ (k n : ℕ) (e0 : SIRError) (m : Buf ℝ), base + nt ≤ m.size →
    (∀ j, n ≤ j → j < n + k → A.elem d p.cp j = .ok (el j) ∧
      (K.kern 1).serial nt ty level att { p with delay := p.delay - (el j).foc - (el j).steer }
        (xo - (el j).gx) (yo - (el j).gy) (zo - (el j).gz) fuel 0 (zeroBuf nt)
        = .ok (resp j, code j) ∧ code j ≠ .outOfBounds) →
    ∃ m', arrLoop A K d nt ty level att p xo yo zo fuel base k n e0 m =
        .ok (m', if k = 0 then e0 else code (n + k - 1)) ∧
      m'.size = m.size ∧
      (∀ i, i < nt → m'.data (base + i) = m.data (base + i) +
        ∑ j ∈ Finset.range k, (el (n + j)).weight * (resp (n + j)).data i) ∧
      ∀ j, j < base ∨ base + nt ≤ j → m'.data j = m.data j := by
  intro k
  induction k with
  | zero =>
    intro n e0 m hb h
    exact ⟨m, by simp [arrLoop], rfl, by simp, fun _ _ => rfl⟩
  | succ k ih =>
    intro n e0 m hb h
    obtain ⟨h1, h2, h3⟩ := h n (le_refl _) (by omega)
    obtain ⟨m1, g1, g2, g3, g4⟩ := ArrKern.call_weight K nt ty level att p xo yo zo (el n) fuel
      base m hb _ _ h2
    obtain ⟨m2, f1, f2, f3, f4⟩ := ih (n + 1) (code n) m1 (by rw [g2]; exact hb)
      (fun j hj hj2 => h j (by omega) (by omega))
    refine ⟨m2, ?_, by rw [f2, g2], ?_, fun j hj => by rw [f4 j hj, g4 j hj]⟩
    · simp only [arrLoop]
      rw [h1]; simp only [Outcome.bind]
      rw [g1]; simp only
      rw [if_neg h3, f1]
      by_cases hk : k = 0
      · subst hk; simp
      · rw [if_neg hk, if_neg (by omega)]; congr 4; omega
    · intro i hi
      rw [f3 i hi, g3 i hi, Finset.sum_range_succ']
      simp only [Nat.add_zero]
      have : ∀ j, n + 1 + j = n + (j + 1) := by intro j; omega
      simp only [this]
      ring

/-! ### C15 -/

/-- Position, delays and weight of element `n` of an array, written out.  The grid holds the `num`
x coordinates, then the `num` y coordinates, then the `num` z coordinates. -/
noncomputable def ArrPar.element (A : ArrPar ℝ) (d : Dims ℝ) (cp : ℝ) (n : ℕ) : Elem ℝ :=
  let gx := A.G.data n
  let gy := A.G.data (A.num + n)
  { gx := gx, gy := gy, gz := A.G.data (2 * A.num + n)
    foc := if A.focMet = .ud then A.focal.data n
      else focusing A.focMet (A.focal.data 0) gx gy d cp
    steer := beamsteering A.steerMet A.theta A.phi gx gy d cp
    weight := if A.doApod then
        apodFormula A.apodMet (A.apod.data n) (Real.sqrt (gx * gx + gy * gy)) d.rmax A.apodPar
      else 1 }

/-- Is the array response built from zero, whatever the buffer holds on entry?  For rectangular and
circular elements with absorption. -/
def ArrKern.fresh : ArrKern ℝ → Option (AttResp ℝ) → Prop
  | .rect .., att => att.isSome
  | .circ .., att => att.isSome
  | .cylind .., _ => False

instance (K : ArrKern ℝ) (att : Option (AttResp ℝ)) : Decidable (K.fresh att) := by
  cases K <;> unfold ArrKern.fresh <;> infer_instance

theorem ArrKern.clears_fresh (K : ArrKern ℝ) (att : Option (AttResp ℝ)) :
    K.clears att = true ↔ K.fresh att := by
  cases K <;> cases att <;> simp [ArrKern.clears, ArrKern.fresh]

/-- C15: let `resp n` be the response of the unweighted element at the observation point relative
to the position of element `n`, with the delay reduced by the focusing and steering delay of the
element, computed on its own into a zero filled buffer; none of them is out of bounds under stop.
Then sample `i` of the array response is the initial value plus the sum over the elements of
weight times sample `i` of `resp n`; nothing outside the column is touched; and the code is that
of the last element.  (`h 0` on entry is the initial value, or 0 for the lossy rectangular and
circular arrays, which clear their column.) -/
theorem C15_superposition (A : ArrPar ℝ) (hA : A.Sized) (K : ArrKern ℝ) (nt : ℕ) (ty : IdxTy)
    (level : ErrorLevel) (att : Option (AttResp ℝ)) (p : Par ℝ) (xo yo zo : ℝ) (fuel base : ℕ)
    (m : Buf ℝ) (hb : base + nt ≤ m.size) (d : Dims ℝ) (hd : maxDimArr A.G A.num = .ok d)
    (resp : ℕ → Buf ℝ) (code : ℕ → SIRError)
    (h : ∀ n < A.num, (K.kern 1).serial nt ty level att
        { p with delay := p.delay - (A.element d p.cp n).foc - (A.element d p.cp n).steer }
        (xo - (A.element d p.cp n).gx) (yo - (A.element d p.cp n).gy)
        (zo - (A.element d p.cp n).gz) fuel 0 (zeroBuf nt) = .ok (resp n, code n))
    (hok : ∀ n < A.num, code n ≠ .outOfBounds) :
    ∃ m', arrSerial A K nt ty level att p xo yo zo fuel base m = .ok (m', code (A.num - 1)) ∧
      (∀ i, i < nt → m'.data (base + i) =
        (if K.fresh att then 0 else m.data (base + i)) +
        ∑ n ∈ Finset.range A.num, (A.element d p.cp n).weight * (resp n).data i) ∧
      ∀ j, j < base ∨ base + nt ≤ j → m'.data j = m.data j := by
  have hel : ∀ n < A.num, A.elem d p.cp n = .ok (A.element d p.cp n) := by
    intro n hn
    rw [elem_ok A hA d p.cp n hn]
    simp only [ArrPar.element, r_lit, r_sqrt, r_add, r_mul, Rat.cast_one]
  have hcl : ∃ m0, (if K.clears att then clearCol base nt m else .ok m) = .ok m0 ∧
      m0.size = m.size ∧
      (∀ i, i < nt → m0.data (base + i) = if K.clears att then 0 else m.data (base + i)) ∧
      ∀ j, j < base ∨ base + nt ≤ j → m0.data j = m.data j := by
    by_cases hc : K.clears att = true
    · simp only [hc, if_true]
      have := clearCol_setCol m base nt (m.getCol base nt) hb nt (le_refl _)
      rw [Buf.setCol_getCol] at this
      rw [this]
      refine ⟨_, rfl, rfl, fun i hi => ?_, fun j hj => Buf.setCol_data_out _ _ _ _ _ hj⟩
      rw [Buf.setCol_data_in _ _ _ _ _ hi]
      simp [hi]
    · simp only [hc]
      exact ⟨m, rfl, rfl, fun _ _ => rfl, fun _ _ => rfl⟩
  obtain ⟨m0, g1, g2, g3, g4⟩ := hcl
  obtain ⟨m', f1, f2, f3, f4⟩ := arrLoop_sum A K d nt ty level att p xo yo zo fuel base
    (A.element d p.cp) resp code A.num 0 .none m0 (by rw [g2]; exact hb)
    (fun j _ hj => ⟨hel j (by omega), h j (by omega), hok j (by omega)⟩)
  refine ⟨m', ?_, fun i hi => ?_, fun j hj => by rw [f4 j hj, g4 j hj]⟩
  · unfold arrSerial
    rw [g1]; simp only [Outcome.bind]
    rw [hd]; simp only
    rw [f1, if_neg (by have := hA.num; omega)]
    simp
  · rw [f3 i hi, g3 i hi]
    simp [K.clears_fresh att]

-- Two elements at x = -4 and x = 4, observation point 3 mm in front of the centre: both elements
-- are at distance 5 and the hypotheses hold.
noncomputable def pairArr : ArrPar ℝ where
  num := 2
  G := { size := 6, data := fun n => if n = 0 then -4 else if n = 1 then 4 else 0 }
  focMet := .none
  focal := { size := 1, data := fun _ => 0 }
  steerMet := .none
  theta := 0
  phi := 0
  doApod := false
  apod := { size := 0, data := fun _ => 0 }
  apodMet := .triangle
  apodPar := 0

/-- Sampling parameters of the example. -/
noncomputable def pairPar : Par ℝ := { dx := 1, dy := 1, dt := 1, delay := 0, v := 1, cp := 1000 }

theorem pair_resp (x : ℝ) (hx : x = 4 ∨ x = -4) :
    ∃ r e, dreamrectSerial 8 .signed .ignore none
      pairPar 1 x 0 3 1 1 2 0 (zeroBuf 8)
      = .ok (r, e) ∧ r.data 5 = 1 / (2 * Real.pi * 5) * 1000 := by
  have h5 : cellDist x 0 3 1 1 1 1 0 0 = 5 := by
    unfold cellDist cell
    rw [show (5 : ℝ) = Real.sqrt (5 ^ 2) by rw [Real.sqrt_sq]; norm_num]
    rcases hx with rfl | rfl <;> norm_num
  have ha : arrivalSample 5 1000 0 1 = 5 := by
    unfold arrivalSample
    rw [show ((5 : ℝ) * 1000 / 1000 - 0) / 1 = ((5 : ℤ) : ℝ) by norm_num, rintR_intCast]
  obtain ⟨m', e, h1, h2⟩ := C11_rayleigh_sum 8 .signed .ignore
    pairPar 1 x 0 3 1 1
    (by norm_num [pairPar]) (by norm_num [pairPar]) 0 (zeroBuf 8) (by simp [zeroBuf])
    (by
      simp only [pairPar]
      rw [odd_floor]
      intro j hj q hq
      have e1 : j = 0 := by omega
      have e2 : q = 0 := by omega
      subst e1 e2
      rw [h5, ha]
      decide)
    (Or.inl (Or.inl rfl)) 2 (by simp only [pairPar]; rw [odd_floor]; omega)
  refine ⟨m', e, h1, ?_⟩
  have := h2 5 (by norm_num)
  simp only [pairPar] at this
  rw [odd_floor] at this
  simp only [zero_add, Finset.sum_range_one, h5, ha] at this
  rw [this]
  norm_num [zeroBuf]

example : ∃ (d : Dims ℝ) (m' : Buf ℝ) (e : SIRError), maxDimArr pairArr.G pairArr.num = .ok d ∧
    arrSerial pairArr (.rect 1 1) 8 .signed .ignore none
      pairPar 0 0 3 2 0 (zeroBuf 8)
      = .ok (m', e) ∧
    m'.data 5 = 2 * (1 / (2 * Real.pi * 5) * 1000) := by
  have hs : pairArr.Sized := ⟨by decide, rfl, by simp [pairArr], by simp [pairArr]⟩
  obtain ⟨d, hd⟩ := maxDimArr_ok pairArr.G pairArr.num hs.num (by rw [hs.grid])
  obtain ⟨r0, e0, h0, h0'⟩ := pair_resp 4 (Or.inl rfl)
  obtain ⟨r1, e1, h1, h1'⟩ := pair_resp (-4) (Or.inr rfl)
  have noob : ∀ x r e, dreamrectSerial 8 .signed .ignore none
      pairPar 1 x 0 3 1 1 2 0 (zeroBuf 8)
      = .ok (r, e) → e ≠ SIRError.outOfBounds := by
    intro x r e h
    have := serial_zeroBuf (Kern.rect 1 1 1) 8 .signed .ignore none
      pairPar x 0 3 2
    simp only [Kern.serial] at this
    rw [h] at this
    cases ho : (Kern.rect 1 1 1).onCol 8 .signed .ignore none
      pairPar x 0 3 2 zeroCol with
    | ok s =>
      rw [ho] at this
      simp only [Outcome.map, liftS, Outcome.ok.injEq, Prod.mk.injEq] at this
      rw [this.2]
      rcases Kern.onCol_err _ _ _ _ _ _ _ _ _ _ _ _ ho with h | h <;> rw [h] <;> simp [oobErr]
    | ub _ => rw [ho] at this; simp at this
    | fuel => rw [ho] at this; simp at this
  obtain ⟨m', g1, g2, _⟩ := C15_superposition pairArr hs (.rect 1 1) 8 .signed .ignore none
    pairPar 0 0 3 2 0 (zeroBuf 8)
    (by simp [zeroBuf]) d hd (fun n => if n = 0 then r0 else r1) (fun n => if n = 0 then e0 else e1)
    (by
      intro n hn
      have : n = 0 ∨ n = 1 := by simp only [pairArr] at hn; omega
      rcases this with rfl | rfl
      · simpa [pairArr, pairPar, ArrPar.element, focusing, beamsteering, ArrKern.kern, Kern.serial]
          using h0
      · simpa [pairArr, pairPar, ArrPar.element, focusing, beamsteering, ArrKern.kern, Kern.serial]
          using h1)
    (by
      intro n hn
      split
      · exact noob _ _ _ h0
      · exact noob _ _ _ h1)
  refine ⟨d, m', _, hd, g1, ?_⟩
  have := g2 5 (by norm_num)
  rw [Nat.zero_add] at this
  rw [this]
  simp only [pairArr, ArrPar.element, ArrKern.fresh, zeroBuf, Finset.sum_range_succ,
    Finset.sum_range_zero]
  simp [h0', h1']
  ring

end Dream
