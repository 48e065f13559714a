import Verif.ClaimsGeo
import Verif.ClaimsAnnu
import Verif.ClaimsArrReal

/-
C53 for annular arrays: the lossless response in closed form, in exact arithmetic.
-/

namespace Dream
open Arith Finset

/-! ### Specification -/

/-- Sample `i` of the response of the full disc with radius number `k`.  A first radius below machine
epsilon stands for "no inner disc". -/
noncomputable def discSample (Gr : ℕ → ℝ) (p : Par ℝ) (xo yo zo : ℝ) (k i : ℕ) : ℝ :=
  if k = 0 ∧ Gr 0 ≤ 1 / 2 ^ 52 then 0
  else (discSurf (Gr k) p.dx p.dy).response p.v p.cp p.delay p.dt xo yo zo i

/-- Sample `i` of the response of ring `n`: the difference of its outer and inner disc. -/
noncomputable def ringResp (Gr : ℕ → ℝ) (p : Par ℝ) (xo yo zo : ℝ) (n i : ℕ) : ℝ :=
  if n = 0 then discSample Gr p xo yo zo 0 i
  else discSample Gr p xo yo zo (2 * n) i - discSample Gr p xo yo zo (2 * n - 1) i

/-- Radius of the middle of ring `n`; the first one is a disc. -/
noncomputable def ringMid (Gr : ℕ → ℝ) (n : ℕ) : ℝ :=
  if n = 0 then 0 else (Gr (2 * n) + Gr (2 * n - 1)) / 2

/-- Focusing delay of ring `n` of `E` rings (microseconds): user defined, or the time by which the path
of the outermost ring to the focus is longer.  All methods x, y, xy, x+y mean the same. -/
noncomputable def annuDelaySpec (met : FocusMet) (f Gr : ℕ → ℝ) (E : ℕ) (cp : ℝ) (n : ℕ) : ℝ :=
  if met = .ud then f n
  else if met = .x ∨ met = .y ∨ met = .xy ∨ met = .x_y then
    (Real.sqrt (ringMid Gr (E - 1) ^ 2 + f 0 ^ 2) - Real.sqrt (ringMid Gr n ^ 2 + f 0 ^ 2)) * 1000 / cp
  else 0

/-- Weight of ring `n` of `E` rings: user defined, a window of the relative ring radius, and 1 for
the Hann and Hamming windows (which are not implemented for annular arrays). -/
noncomputable def annuWeightSpec (doApod : Bool) (met : ApodMet) (w Gr : ℕ → ℝ) (par : ℝ) (E n : ℕ) : ℝ :=
  if doApod = false ∨ met = .hann ∨ met = .hamming then 1
  else if met = .ud then w n
  else windowSpec met par (ringMid Gr n / ringMid Gr (E - 1))

/-- Sample `i` of the array response: every ring response is weighted, and delayed by its delay rounded
to samples plus one sample. -/
noncomputable def annuResp (Gr : ℕ → ℝ) (p : Par ℝ) (xo yo zo : ℝ) (E : ℕ) (delay weight : ℕ → ℝ)
    (i : ℕ) : ℝ :=
  ∑ n ∈ range E, weight n *
    if rintR (delay n / p.dt) + 1 ≤ (i : ℤ) then
      ringResp Gr p xo yo zo n (i - (rintR (delay n / p.dt) + 1).toNat)
    else 0

/-! ### Proofs -/

theorem ringRadius_eq (A : AnnuPar ℝ) (n : ℕ) : A.ringRadius n = ringMid A.Gr.data n := by
  unfold AnnuPar.ringRadius ringMid
  by_cases h : n = 0
  · simp [h]
  · rw [if_neg h, if_neg h]; simp only [r_div, r_add, r_lit]; push_cast; rfl

theorem ringDelay_eq (A : AnnuPar ℝ) (cp : ℝ) (n : ℕ) :
    A.ringDelay cp n = annuDelaySpec A.focMet A.focal.data A.Gr.data A.numElements cp n := by
  unfold AnnuPar.ringDelay annuDelaySpec
  rw [ringRadius_eq, ringRadius_eq]
  cases A.focMet <;> simp [focusingAnnular, pow_two]

/-- Geometry: radii are not negative, and windows need an aperture that is not a point. -/
structure AnnuPar.GoodRadii (A : AnnuPar ℝ) : Prop where
  nonneg : ∀ n, n < A.numRadii → 0 ≤ A.Gr.data n
  aperture : A.doApod = true → A.apodMet ≠ .ud → 0 < ringMid A.Gr.data (A.numElements - 1)

theorem ringWeight_eq (A : AnnuPar ℝ) (hr : A.GoodRadii) (n : ℕ) (hn : n < A.numElements) :
    A.ringWeight n =
      annuWeightSpec A.doApod A.apodMet A.apod.data A.Gr.data A.apodPar A.numElements n := by
  unfold AnnuPar.ringWeight annuWeightSpec
  have hE : A.numElements = (A.numRadii + 1) / 2 := rfl
  have h0 : 0 ≤ ringMid A.Gr.data n := by
    unfold ringMid
    split
    · exact le_rfl
    · have h1 := hr.nonneg (2 * n) (by omega)
      have h2 := hr.nonneg (2 * n - 1) (by omega)
      positivity
  by_cases ha : A.doApod = true
  · rw [if_pos ha, ringRadius_eq, ringRadius_eq]
    by_cases hu : A.apodMet = .ud
    · rw [hu]; simp [ha]
    · have hR := hr.aperture ha hu
      have := (C19_windows A.apodMet (lit 0) (ringMid A.Gr.data n)
        (ringMid A.Gr.data (A.numElements - 1)) A.apodPar h0 hR).1 hu
      cases hm : A.apodMet <;> rw [hm] at this <;> simp_all
  · simp [ha]

theorem list_foldl_sum (f : ℕ → ℝ) (E : ℕ) :
    (List.range E).foldl (fun (s : ℝ) n => s +. f n) (lit 0) = ∑ n ∈ range E, f n := by
  induction E with
  | zero => simp
  | succ E ih => rw [List.range_succ, List.foldl_append, ih, Finset.sum_range_succ]; simp

/-- A disc of C22 in closed form. -/
theorem disc_closed (A : AnnuPar ℝ) (nt : ℕ) (ty : IdxTy) (level : ErrorLevel) (p : Par ℝ)
    (xo yo zo : ℝ) (fuel k : ℕ) (hdx : 0 < p.dx) (hdy : 0 < p.dy)
    (hl : level = .ignore ∨ level = .warn ∨ level = .none)
    (hfit : ∀ q < (discSurf (A.Gr.data k) p.dx p.dy).rows,
      ∀ j < (discSurf (A.Gr.data k) p.dx p.dy).cols q,
      ty.fits ((discSurf (A.Gr.data k) p.dx p.dy).arrives p.cp p.delay p.dt xo yo zo q j) = true)
    (hf : (discSurf (A.Gr.data k) p.dx p.dy).fuel ≤ fuel) :
    ∃ d e, A.DiscIs nt ty level none p xo yo zo fuel k d e ∧ e ≠ .outOfBounds ∧
      ∀ i, i < nt → d.data i = discSample A.Gr.data p xo yo zo k i := by
  unfold AnnuPar.DiscIs discSample
  have heps : (le (A.Gr.data 0) epsilon = true) ↔ A.Gr.data 0 ≤ 1 / 2 ^ 52 := by
    simp only [epsilon, r_lit, r_le, decide_eq_true_eq]
    push_cast
    norm_num
  simp only [heps]
  by_cases h0 : k = 0 ∧ A.Gr.data 0 ≤ 1 / 2 ^ 52
  · simp only [h0, and_self, if_true]
    refine ⟨_, _, ⟨rfl, rfl⟩, by simp, fun i hi => ?_⟩
    simp [zeros]
  · simp only [h0, if_false]
    obtain ⟨m', e, g1, g2⟩ := C53_surface (Kern.circ 1 (A.Gr.data k)) nt ty level p xo yo zo 0
      (zeros ℝ nt) (by simp [zeros]) ⟨hdx, hdy, by rintro w a b Rc h; cases h⟩ hfit (.inl hl) fuel hf
    refine ⟨m', e, ?_, ?_, fun i hi => ?_⟩
    · have : (lit 1 : ℝ) = 1 := by simp
      rw [this]; exact g1
    · have h3 := Kern.serial_err _ _ _ _ _ _ _ _ _ _ _ _ (by simp [zeros]) _ g1
      rcases h3 with h3 | h3
      · have : e = .none := h3
        rw [this]; simp
      · have : e = oobErr level := h3
        rw [this]; rcases hl with h | h | h <;> rw [h] <;> simp [oobErr]
    · have := g2 i hi
      rw [Nat.zero_add] at this
      rw [this]
      simp [Kern.startsFromZero, Kern.wt, zeros, Kern.surf]

/-- C53, annular arrays: the lossless response is the sum of the weighted and delayed ring responses,
whatever the column held. -/
theorem C53_annu (A : AnnuPar ℝ) (hA : A.Sized) (hr : A.GoodRadii) (nt : ℕ) (ty : IdxTy)
    (level : ErrorLevel) (hl : level = .ignore ∨ level = .warn ∨ level = .none) (p : Par ℝ)
    (xo yo zo : ℝ) (fuel : ℕ) (hdx : 0 < p.dx) (hdy : 0 < p.dy)
    (hfit : ∀ k < A.numRadii, ∀ q < (discSurf (A.Gr.data k) p.dx p.dy).rows,
      ∀ j < (discSurf (A.Gr.data k) p.dx p.dy).cols q,
      ty.fits ((discSurf (A.Gr.data k) p.dx p.dy).arrives p.cp p.delay p.dt xo yo zo q j) = true)
    (hf : ∀ k < A.numRadii, (discSurf (A.Gr.data k) p.dx p.dy).fuel ≤ fuel)
    (hq : ∀ n < A.numElements,
      ty.fits (rintR (annuDelaySpec A.focMet A.focal.data A.Gr.data A.numElements p.cp n / p.dt)) = true ∧
      0 ≤ rintR (annuDelaySpec A.focMet A.focal.data A.Gr.data A.numElements p.cp n / p.dt) + 1)
    (c : ℕ → ℝ) :
    ∃ c' e, (annuSerial A nt ty level none p xo yo zo fuel).runCol nt c = .ok (c', e) ∧
      e ≠ .outOfBounds ∧
      ∀ i, i < nt → c' i = annuResp A.Gr.data p xo yo zo A.numElements
        (annuDelaySpec A.focMet A.focal.data A.Gr.data A.numElements p.cp)
        (annuWeightSpec A.doApod A.apodMet A.apod.data A.Gr.data A.apodPar A.numElements) i := by
  have hdisc : ∀ k, ∃ de : Buf ℝ × SIRError, k < A.numRadii →
      A.DiscIs nt ty level none p xo yo zo fuel k de.1 de.2 ∧ de.2 ≠ .outOfBounds ∧
      ∀ i, i < nt → de.1.data i = discSample A.Gr.data p xo yo zo k i := by
    intro k
    by_cases hk : k < A.numRadii
    · obtain ⟨d, e, g⟩ := disc_closed A nt ty level p xo yo zo fuel k hdx hdy hl (hfit k hk) (hf k hk)
      exact ⟨(d, e), fun _ => g⟩
    · exact ⟨(zeros ℝ 0, .none), fun h => absurd h hk⟩
  choose de hde using hdisc
  have hE : A.numElements = (A.numRadii + 1) / 2 := rfl
  have h1 := hA.radii
  have hrun := C22_rings A hA nt ty level none p xo yo zo fuel (fun k => (de k).1) (fun k => (de k).2)
    (fun k hk => (hde k hk).1) (fun k hk => (hde k hk).2.1)
    (fun n => rintR (annuDelaySpec A.focMet A.focal.data A.Gr.data A.numElements p.cp n / p.dt))
    (by
      intro n hn
      refine ⟨?_, (hq n hn).2⟩
      rw [ringDelay_eq]
      simp only [r_div, r_rint, castIdx]
      rw [if_pos (hq n hn).1]) c
  refine ⟨_, _, hrun, (hde _ (by omega)).2.1, fun i hi => ?_⟩
  rw [if_pos hi, list_foldl_sum]
  unfold annuResp
  refine Finset.sum_congr rfl fun n hn => ?_
  rw [Finset.mem_range] at hn
  rw [ringWeight_eq A hr n hn]
  simp only [r_mul, r_lit, Rat.cast_zero]
  congr 1
  split
  · next hle =>
    have hlt : i - (rintR (annuDelaySpec A.focMet A.focal.data A.Gr.data A.numElements p.cp n / p.dt)
      + 1).toNat < nt := by omega
    unfold ringSample ringResp
    by_cases h0 : n = 0
    · rw [if_pos h0, if_pos h0, (hde 0 (by omega)).2.2 _ hlt]
    · rw [if_neg h0, if_neg h0, (hde _ (by omega)).2.2 _ hlt, (hde _ (by omega)).2.2 _ hlt]; rfl
  · rfl

/-- Observation point and delay of an annular array call, as the user passes them. -/
def AnnuCall.obs (D : AnnuCall ℝ) (n : ℕ) : ℝ × ℝ × ℝ :=
  (D.Ro.data n, D.Ro.data (n + D.No), D.Ro.data (n + 2 * D.No))

def AnnuCall.delayFor (D : AnnuCall ℝ) (n : ℕ) : ℝ :=
  D.delay.data (match D.delayType with | .single => 0 | .multiple => n)

theorem AnnuCall.inputs_eq (D : AnnuCall ℝ) (m : Buf ℝ) (hs : D.Sized m) (n : ℕ) (hn : n < D.No) :
    D.inputs n = .ok ((D.obs n).1, (D.obs n).2.1, (D.obs n).2.2, D.delayFor n) := by
  have h1 := hs.ro
  have h2 := hs.delay
  unfold AnnuCall.inputs
  rw [Buf.read_nat _ _ (by omega), Outcome.ok_bind, Buf.read_nat _ _ (by omega), Outcome.ok_bind,
    Buf.read_nat _ _ (by omega), Outcome.ok_bind]
  unfold AnnuCall.delayFor
  cases hd : D.delayType with
  | single =>
    rw [hd] at h2
    simp only at h2 ⊢
    have := Buf.read_nat D.delay 0 (by omega)
    simp only [Nat.cast_zero] at this
    rw [this, Outcome.ok_bind, Nat.one_mul]; rfl
  | multiple =>
    rw [hd] at h2
    simp only at h2 ⊢
    rw [Buf.read_nat D.delay n (by omega), Outcome.ok_bind, Nat.one_mul]; rfl

/-- C53, the annular call: every complete run of the threaded driver (no abort; error level ignore,
warn or none) leaves the closed-form response of each observation point in its column. -/
theorem C53_annu_output (D : AnnuCall ℝ) (m : Buf ℝ) (hs : D.Sized m) (hr : D.A.GoodRadii)
    (hatt : D.att = none) (hl : D.level = .ignore ∨ D.level = .warn ∨ D.level = .none)
    (hdx : 0 < D.p.dx) (hdy : 0 < D.p.dy)
    (hfit : ∀ n < D.No, ∀ k < D.A.numRadii, ∀ q < (discSurf (D.A.Gr.data k) D.p.dx D.p.dy).rows,
      ∀ j < (discSurf (D.A.Gr.data k) D.p.dx D.p.dy).cols q,
      D.ty.fits ((discSurf (D.A.Gr.data k) D.p.dx D.p.dy).arrives D.p.cp (D.delayFor n) D.p.dt
        (D.obs n).1 (D.obs n).2.1 (D.obs n).2.2 q j) = true)
    (hf : ∀ k < D.A.numRadii, (discSurf (D.A.Gr.data k) D.p.dx D.p.dy).fuel ≤ D.fuel)
    (hq : ∀ n < D.A.numElements,
      D.ty.fits (rintR (annuDelaySpec D.A.focMet D.A.focal.data D.A.Gr.data D.A.numElements
        D.p.cp n / D.p.dt)) = true)
    (nth : ℕ) (h1 : 1 ≤ nth) (as : List Act) (hab : Act.abort ∉ as)
    (s' : Sys ℝ (Prog ℝ SIRError)) (hrun : D.drv.Run nth m as s')
    (n : ℕ) (hn : n < D.No) (i : ℕ) (hi : i < D.nt) :
    s'.mem.data (n * D.nt + i) =
      annuResp D.A.Gr.data { D.p with delay := D.delayFor n } (D.obs n).1 (D.obs n).2.1 (D.obs n).2.2
        D.A.numElements
        (annuDelaySpec D.A.focMet D.A.focal.data D.A.Gr.data D.A.numElements D.p.cp)
        (annuWeightSpec D.A.doApod D.A.apodMet D.A.apod.data D.A.Gr.data D.A.apodPar
          D.A.numElements) i := by
  have hcol := fun n hn => AnnuCall.inside hs n hn
  have key : ∀ n, n < D.No → ∀ c, ∃ c' e, (D.prog n).runCol D.nt c = .ok (c', e) ∧
      e ≠ .outOfBounds ∧ ∀ i, i < D.nt → c' i =
      annuResp D.A.Gr.data { D.p with delay := D.delayFor n } (D.obs n).1 (D.obs n).2.1 (D.obs n).2.2
        D.A.numElements
        (annuDelaySpec D.A.focMet D.A.focal.data D.A.Gr.data D.A.numElements D.p.cp)
        (annuWeightSpec D.A.doApod D.A.apodMet D.A.apod.data D.A.Gr.data D.A.apodPar
          D.A.numElements) i := by
    intro n hn c
    obtain ⟨c', e, g1, g2, g3⟩ := C53_annu D.A hs.arr hr D.nt D.ty D.level hl
      { D.p with delay := D.delayFor n } (D.obs n).1 (D.obs n).2.1 (D.obs n).2.2 D.fuel hdx hdy
      (hfit n hn) hf (by
        intro k hk
        refine ⟨hq k hk, ?_⟩
        have := hs.delays k hk
          (rintR (annuDelaySpec D.A.focMet D.A.focal.data D.A.Gr.data D.A.numElements D.p.cp k / D.p.dt))
        apply this
        rw [ringDelay_eq]
        simp only [r_div, r_rint, castIdx]
        rw [if_pos (hq k hk)]) c
    refine ⟨c', e, ?_, g2, g3⟩
    unfold AnnuCall.prog
    rw [D.inputs_eq m hs n hn, hatt, Prog.runCol_bind, Prog.runCol_lift]
    exact g1
  have hdef : D.drv.Defined m := Drv.ofProg_defined (AnnuCall.ok hs) fun n hn => by
    obtain ⟨c', e, g, _⟩ := key n hn (m.getCol (n * D.nt) D.nt)
    exact ⟨_, g⟩
  have hok : ∀ n, n < D.No → ¬ D.drv.PointErr m n .outOfBounds := fun n hn =>
    Drv.nonstop_levels (D := D.drv) (AnnuCall.faithful hs) hdef hl n hn
  obtain ⟨c', e, g1, _, g3⟩ := key n hn (m.getCol (n * D.nt) D.nt)
  have hser : (D.prog n).runBuf (n * D.nt) m = .ok (m.setCol (n * D.nt) D.nt c', e) := by
    rw [Prog.runBuf_col (n * D.nt) D.nt m (hcol n hn) (D.prog n) (by rw [g1]; simp), g1]
    rfl
  rw [C03_annu_columns hs hdef nth h1 as hab hok s' hrun n hn _ e hser i hi,
    Buf.setCol_data_in _ _ _ _ _ hi, g3 i hi]

/-! A two-ring array that meets the hypotheses: radii 1, 2, 3, steps 2, no focusing, triangular
window. -/

noncomputable def exAnnu : AnnuCall ℝ where
  A := { numRadii := 3, Gr := ⟨3, fun n => n + 1⟩, focMet := .none, focal := ⟨1, fun _ => 0⟩,
         doApod := true, apod := ⟨0, fun _ => 0⟩, apodMet := .triangle, apodPar := 0 }
  p := { dx := 2, dy := 2, dt := 1, delay := 0, v := 1, cp := 1000 }
  att := none
  nt := 16
  ty := .signed
  level := .ignore
  No := 1
  Ro := ⟨3, fun n => if n = 2 then 5 else 0⟩
  delayType := .single
  delay := ⟨1, fun _ => 0⟩
  fuel := 1000

theorem exAnnu_good : exAnnu.A.GoodRadii where
  nonneg := fun n _ => by simp only [exAnnu]; positivity
  aperture := fun _ _ => by
    simp only [exAnnu, AnnuPar.numElements]
    norm_num [ringMid]

theorem exAnnu_sized : exAnnu.Sized ⟨16, fun _ => 0⟩ where
  arr := ⟨by decide, le_rfl, by simp [exAnnu], by simp [exAnnu]⟩
  ro := rfl
  delay := rfl
  out := rfl
  delays := by
    intro n _ q hq
    rw [ringDelay_eq] at hq
    simp only [exAnnu, annuDelaySpec, r_div, r_rint, castIdx] at hq
    simp at hq
    have h0 : rintR (0 : ℝ) = 0 := by simpa using rintR_intCast 0
    rw [h0, if_pos (by decide)] at hq
    injection hq with hq
    omega

-- weights: 1 in the centre, 0 on the outermost ring
example : annuWeightSpec true .triangle exAnnu.A.apod.data exAnnu.A.Gr.data 0 2 0 = 1 ∧
    annuWeightSpec true .triangle exAnnu.A.apod.data exAnnu.A.Gr.data 0 2 1 = 0 := by
  constructor
  · simp [annuWeightSpec, windowSpec, ringMid, exAnnu]
  · simp [annuWeightSpec, windowSpec, ringMid, exAnnu]
    norm_num

theorem cell_mem (a dx : ℝ) (hdx : 0 < dx) (ha : 0 ≤ a) (j : ℕ) (hj : j < ⌊a / dx + 1 / 2⌋₊) :
    |cell a dx j| ≤ a / 2 := by
  have h1 : ((j : ℝ) + 1) ≤ a / dx + 1 / 2 := by
    have h2 : (((j + 1 : ℕ)) : ℝ) ≤ a / dx + 1 / 2 :=
      (Nat.le_floor_iff (by positivity)).mp hj
    push_cast at h2
    exact h2
  have h2 : ((j : ℝ) + 1 / 2) * dx ≤ a := by
    rw [← le_div_iff₀ hdx]; linarith
  have h3 : 0 ≤ ((j : ℝ) + 1 / 2) * dx := by positivity
  unfold cell
  rw [abs_le]
  constructor <;> nlinarith

/-- Arrival samples of a disc are representable when the farthest path is not astronomically long. -/
theorem disc_fits (R dx dy cp delay dt xo yo zo : ℝ) (hR : 0 ≤ R) (hdx : 0 < dx) (hdy : 0 < dy)
    (hcp : 0 < cp) (hdt : 0 < dt)
    (hb : ((|xo| + R) + (|yo| + R) + |zo|) * 1000 / cp / dt + |delay| / dt + 1 ≤ 2 ^ 62) (q j : ℕ)
    (hq : q < (discSurf R dx dy).rows) (hj : j < (discSurf R dx dy).cols q) :
    IdxTy.signed.fits ((discSurf R dx dy).arrives cp delay dt xo yo zo q j) = true := by
  have hy : |(discSurf R dx dy).y q j| ≤ R := by
    have := cell_mem (2 * R) dy hdy (by positivity) q hq
    show |cell (2 * R) dy q| ≤ R
    linarith
  have hx : |(discSurf R dx dy).x q j| ≤ R := by
    have h1 := cell_mem (2 * discHalf R dy q) dx hdx (by unfold discHalf; positivity) j hj
    have h2 : discHalf R dy q ≤ R := by
      unfold discHalf
      rw [Real.sqrt_le_left hR]
      nlinarith [sq_nonneg (cell (2 * R) dy q)]
    show |cell (2 * discHalf R dy q) dx j| ≤ R
    linarith
  have hd0 : 0 ≤ (discSurf R dx dy).dist xo yo zo q j := Real.sqrt_nonneg _
  have hd : (discSurf R dx dy).dist xo yo zo q j ≤ (|xo| + R) + (|yo| + R) + |zo| := by
    unfold Surf.dist
    rw [Real.sqrt_le_left (by positivity)]
    have e1 : |xo - (discSurf R dx dy).x q j| ≤ |xo| + R := by
      have := abs_sub xo ((discSurf R dx dy).x q j); linarith
    have e2 : |yo - (discSurf R dx dy).y q j| ≤ |yo| + R := by
      have := abs_sub yo ((discSurf R dx dy).y q j); linarith
    have e3 : zo - (discSurf R dx dy).z q j = zo := sub_zero _
    rw [e3, ← sq_abs (xo - _), ← sq_abs (yo - _), ← sq_abs zo]
    have a1 := abs_nonneg (xo - (discSurf R dx dy).x q j)
    have a2 := abs_nonneg (yo - (discSurf R dx dy).y q j)
    have a3 := abs_nonneg zo
    have b1 := pow_le_pow_left₀ a1 e1 2
    have b2 := pow_le_pow_left₀ a2 e2 2
    nlinarith [abs_nonneg xo, abs_nonneg yo]
  unfold Surf.arrives arrivalSample
  set D := (discSurf R dx dy).dist xo yo zo q j
  have hfoc : (discSurf R dx dy).foc q j = 0 := rfl
  rw [hfoc, sub_zero]
  have hn := rintR_near ((D * 1000 / cp - delay) / dt)
  have hv : |(D * 1000 / cp - delay) / dt| ≤
      ((|xo| + R) + (|yo| + R) + |zo|) * 1000 / cp / dt + |delay| / dt := by
    rw [sub_div]
    refine (abs_sub _ _).trans ?_
    rw [abs_div delay, abs_of_pos hdt]
    have : |D * 1000 / cp / dt| ≤ ((|xo| + R) + (|yo| + R) + |zo|) * 1000 / cp / dt := by
      rw [abs_of_nonneg (by positivity)]
      gcongr
    linarith
  have hw : |((rintR ((D * 1000 / cp - delay) / dt) : ℤ) : ℝ)| ≤ 2 ^ 62 := by
    have h3 := abs_le.mp hn
    have h4 := abs_le.mp hv
    rw [abs_le]
    constructor <;> linarith [h3.1, h3.2, h4.1, h4.2]
  rw [abs_le] at hw
  have h5 : -(2 : ℤ) ^ 62 ≤ rintR ((D * 1000 / cp - delay) / dt) := by
    have := hw.1; exact_mod_cast this
  have h6 : rintR ((D * 1000 / cp - delay) / dt) ≤ (2 : ℤ) ^ 62 := by
    have := hw.2; exact_mod_cast this
  simp only [IdxTy.fits, decide_eq_true_eq]
  norm_num at h5 h6 ⊢
  constructor <;> linarith

-- the arrival hypothesis of the example holds
example : ∀ k < exAnnu.A.numRadii, ∀ q < (discSurf (exAnnu.A.Gr.data k) 2 2).rows,
    ∀ j < (discSurf (exAnnu.A.Gr.data k) 2 2).cols q,
    exAnnu.ty.fits ((discSurf (exAnnu.A.Gr.data k) 2 2).arrives 1000 0 1 0 0 5 q j) = true := by
  intro k hk q hq j hj
  have hk' : (k : ℝ) ≤ 3 := by
    have : k < 3 := hk
    exact_mod_cast this.le
  refine disc_fits _ 2 2 1000 0 1 0 0 5 ?_ (by norm_num) (by norm_num) (by norm_num) (by norm_num) ?_
    q j hq hj
  · show (0 : ℝ) ≤ k + 1; positivity
  · show (|(0:ℝ)| + (k + 1 : ℝ) + (|0| + (k + 1 : ℝ)) + |5|) * 1000 / 1000 / 1 + |0| / 1 + 1 ≤ 2 ^ 62
    norm_num
    linarith

end Dream
