import Verif.GpuRect
import Verif.ClaimsRect
import Verif.Toy

/-
C66: `rect_sir` on the GPU.
-/

namespace Dream
open Arith

section General
variable {F : Type} [Arith F]

/-- The same call with the first delay for all points. -/
def AnaCall.firstDelay (C : AnaCall F) : AnaCall F :=
  { C with delayType := .single, delay := ⟨1, fun _ => C.delay.data 0⟩ }

/-- The buffers of the arguments are as the wrapper makes them and there is a point. -/
structure AnaCall.ArgsOk (C : AnaCall F) : Prop where
  ro : C.Ro.size = 3 * C.No
  delay : C.delay.size = match C.delayType with | .single => 1 | .multiple => C.No
  pos : 0 < C.No

theorem AnaCall.ArgsOk.gpu {C : AnaCall F} (h : C.ArgsOk) (a b : F) :
    C.gpuArgs a b = .ok ⟨C.Ro, C.No, a, b, C.dt, C.nt, C.delay.data 0, C.v, C.cp⟩ := by
  have h1 : 0 < C.delay.size := by
    rw [h.delay]
    cases C.delayType with
    | single => exact Nat.one_pos
    | multiple => exact h.pos
  unfold AnaCall.gpuArgs
  rw [show (0 : Int) = ((0 : Nat) : Int) from rfl, Buf.read_nat _ _ h1, Outcome.ok_bind]

theorem gpuRun_samples (C : AnaCall F) (a b : F) (h : C.ArgsOk) (h64 : C.No % 64 = 0)
    (fresh H : Nat → F) (hr : C.GpuRun a b fresh H) (n : Nat) (hn : n < C.No) (it : Nat)
    (hit : it < C.nt) :
    H (C.nt * n + it) = clRectSample (C.xo n) (C.yo n) (C.zo n) a b C.dt (C.delay.data 0) C.cp it := by
  obtain ⟨A, hA, hl⟩ := hr
  rw [h.gpu a b] at hA
  cases hA
  have key := fun (i : Nat) (hi : i < C.No) (c : Nat → F) => (clRectSir_run
    (⟨C.Ro, C.No, a, b, C.dt, C.nt, C.delay.data 0, C.v, C.cp⟩ : ClRectArgs F) h.ro i hi c).1
  obtain ⟨c, h1, h2⟩ := launched_columns C.nt C.No _ fresh H h64 (fun i hi g => by
    unfold itemOut at g
    rcases key i hi (fun j => fresh (C.nt * i + j)) with k | k
    · exact absurd (k.symm.trans g) (by simp)
    · exact absurd (k.symm.trans g) (by simp)) hl n hn
  rw [h2 it hit]
  unfold itemOut at h1
  rcases key n hn (fun j => fresh (C.nt * n + j)) with k | k
  · have := k.symm.trans h1
    simp only [Outcome.ok.injEq, Prod.mk.injEq, and_true] at this
    rw [← this]
    simp only [if_pos hit]
    rfl
  · exact absurd (k.symm.trans h1) (by simp)

/-- C66, any arithmetic: let the number of points be a multiple of 64.  If, at a point and sample,
each of the four corner contributions the CPU adds is positive or changes nothing when added, the
GPU's matrix has in that place what every complete run of the CPU version (any number of threads,
any schedule) with the first delay for all points has. -/
theorem C66_any_arithmetic (C : AnaCall F) (a b : F) (hk : C.kind = .rect a b) (h : C.ArgsOk)
    (h64 : C.No % 64 = 0) (fresh G : Nat → F) (hg : C.GpuRun a b fresh G)
    (H : Buf F) (hH : H.size = C.nt * C.No)
    (nth : Nat) (h1 : 1 ≤ nth) (as : List Act) (hab : Act.abort ∉ as) (s' : Sys F (Prog F SIRError))
    (hrun : C.firstDelay.drv.Run nth H as s') (n : Nat) (hn : n < C.No) (it : Nat) (hit : it < C.nt)
    (hpos : ∀ k, 1 ≤ k → k ≤ 4 →
      lt (lit 0) (cornerAt (C.xo n) (C.yo n) (C.zo n) a b C.dt (C.delay.data 0) C.cp k it) = true ∨
      ∀ z, z +. rectTerm (C.xo n) (C.yo n) (C.zo n) a b C.dt (C.delay.data 0) C.cp k it = z) :
    G (C.nt * n + it) = s'.mem.data (n * C.nt + it) := by
  have hs : C.firstDelay.Sized H := ⟨h.ro, rfl, hH⟩
  have hcpu : s'.mem.data (n * C.nt + it) = C.firstDelay.sample n it :=
    AnaCall.run_samples hs nth h1 as hab s' hrun n hn it hit
  rw [gpuRun_samples C a b h h64 fresh G hg n hn it hit, hcpu]
  unfold AnaCall.sample
  rw [show C.firstDelay.kind = .rect a b from hk]
  have e : ∀ k, 1 ≤ k → k ≤ 4 → ∀ z, addPos (C.xo n) (C.yo n) (C.zo n) a b C.dt (C.delay.data 0) C.cp k
      it z = z +. rectTerm (C.xo n) (C.yo n) (C.zo n) a b C.dt (C.delay.data 0) C.cp k it := by
    intro k k1 k4 z
    unfold addPos
    rcases hpos k k1 k4 with g | g
    · rw [if_pos (show flt _ _ from g)]
    · split
      · rfl
      · exact (g z).symm
  unfold clRectSample
  rw [e 1 (by omega) (by omega), e 2 (by omega) (by omega), e 3 (by omega) (by omega),
    e 4 (by omega) (by omega)]
  rfl

/-- C66: below the `int` limits no schedule of the device runs into undefined behaviour and there is
a complete launch. -/
theorem C66_defined (C : AnaCall F) (a b : F) (h : C.ArgsOk) (s1 : 3 * C.No < 2 ^ 31)
    (s2 : C.nt * C.No < 2 ^ 31) (fresh : Nat → F) :
    (∃ H, C.GpuRun a b fresh H) ∧
    ∀ A, C.gpuArgs a b = .ok A → ∀ sched, ∃ d,
      Dev.run A.nt A.No sched { mem := { size := A.nt * A.No, data := fresh }, item := clRectSir A } = .ok d := by
  have key : ∀ A, C.gpuArgs a b = .ok A → ∀ i, i < A.No → ∃ r, itemOut A.nt (clRectSir A) fresh i = .ok r := by
    intro A hA i hi
    rw [h.gpu a b] at hA
    cases hA
    exact (clRectSir_run (⟨C.Ro, C.No, a, b, C.dt, C.nt, C.delay.data 0, C.v, C.cp⟩ : ClRectArgs F) h.ro i hi
      (fun j => fresh (C.nt * i + j))).2 s1 s2
  refine ⟨?_, fun A hA sched => launch_defined A.nt A.No _ fresh (key A hA) sched⟩
  obtain ⟨H, hH⟩ := launch_exists C.nt C.No
    (clRectSir ⟨C.Ro, C.No, a, b, C.dt, C.nt, C.delay.data 0, C.v, C.cp⟩) fresh (key _ (h.gpu a b))
  exact ⟨H, _, h.gpu a b, hH⟩

/-- C66: if the number of points is no multiple of 64 the kernel does not run and any matrix `X`
can be the result. -/
theorem C66_other_sizes (C : AnaCall F) (a b : F) (h : C.ArgsOk) (h64 : C.No % 64 ≠ 0) (X : Nat → F) :
    C.GpuRun a b X X ∧ ∀ G, C.GpuRun a b X G → ∀ i, i < C.nt * C.No → G i = X i := by
  constructor
  · refine ⟨_, h.gpu a b, ?_⟩
    unfold Launched
    rw [if_neg h64]
    exact fun _ _ => rfl
  · rintro G ⟨A, hA, hl⟩
    rw [h.gpu a b] at hA
    cases hA
    unfold Launched at hl
    rw [if_neg h64] at hl
    exact hl

end General

section RealCorner
variable (z cp t : ℝ)

/-- In exact arithmetic a corner never contributes a negative amount, except possibly exactly when
the wave front is at the aperture plane and the point over an edge. -/
theorem corner_nonneg (s l : ℝ) (hcp : 0 < cp) (hs : 0 ≤ s) (hl : 0 ≤ l)
    (hne : cp * t = |z| → 0 < s ∧ 0 < l) : 0 ≤ rectCorner z s l cp t := by
  have big : ∀ q, cp * t < |z| → z * z ≤ q → ¬ Real.sqrt q / cp ≤ t := by
    intro q hlt hq g
    rw [div_le_iff₀ hcp, mul_comm] at g
    have : |z| ≤ Real.sqrt q := by
      apply Real.le_sqrt_of_sq_le
      rw [sq_abs, sq]; exact hq
    linarith
  rcases lt_trichotomy (cp * t) |z| with h | h | h
  · have e2 := big (z * z + s * s) h (by nlinarith [mul_self_nonneg s])
    have e3 := big (z * z + l * l) h (by nlinarith [mul_self_nonneg l])
    simp only [rectCorner, fle_real, r_div, r_mul, r_add, r_sqrt, r_lit, e2, e3, false_and, if_false]
    push_cast
    split
    · positivity
    · exact le_rfl
  · obtain ⟨hs, hl⟩ := hne h
    have ht : 0 ≤ cp * t := by rw [h]; exact abs_nonneg _
    have hz2 : (cp * t) ^ 2 = z * z := by rw [h, sq_abs, sq]
    have e2 : ¬ Real.sqrt (z * z + s * s) / cp ≤ t := by
      rw [tau_le cp t _ hcp ht, hz2]; nlinarith
    have e3 : ¬ Real.sqrt (z * z + l * l) / cp ≤ t := by
      rw [tau_le cp t _ hcp ht, hz2]; nlinarith
    simp only [rectCorner, fle_real, r_div, r_mul, r_add, r_sqrt, r_lit, e2, e3, false_and, if_false]
    push_cast
    split
    · positivity
    · exact le_rfl
  · have e1 : z / cp ≤ t := by
      rw [div_le_iff₀ hcp, mul_comm]; linarith [le_abs_self z]
    have e1' : |z| / cp ≤ t := by
      rw [div_le_iff₀ hcp, mul_comm]; linarith
    have hsq : |z| * |z| = z * z := abs_mul_abs_self z
    have hdd : |z| / cp * (|z| / cp) = z / cp * (z / cp) := by
      rw [div_mul_div_comm, div_mul_div_comm, hsq]
    have : rectCorner z s l cp t = rectCorner |z| s l cp t := by
      simp only [rectCorner, fle_real, r_div, r_mul, r_add, r_sub, r_sqrt, r_lit, r_acos, r_pi, e1, e1', hsq, hdd]
    rw [this, corner_after |z| cp t s l (abs_nonneg _) hcp hs hl h]
    have hσ : 0 < cutRadius |z| cp t := by
      unfold cutRadius
      apply Real.sqrt_pos.mpr
      have := abs_nonneg z
      nlinarith
    rw [quadrant_fraction s l _ hs hl hσ]
    have hpi := Real.pi_pos
    have m := le_max_left 0 (Real.pi / 2 - Real.arccos (s / cutRadius |z| cp t) -
      Real.arccos (l / cutRadius |z| cp t))
    positivity

end RealCorner

theorem subRect_real (x y a b : ℝ) (k : ℕ) (h1 : 1 ≤ k) (h4 : k ≤ 4) (ha : 0 < a) (hb : 0 < b) (hx : 0 ≤ x)
    (hy : 0 ≤ y) : let p := subRect x y a b k
    0 ≤ p.1 ∧ 0 ≤ p.2.1 ∧ (x ≠ a / 2 → 0 < p.1) ∧ (y ≠ b / 2 → 0 < p.2.1) := by
  have q1 : x ≠ a / 2 → 0 < |x - a / 2| := fun h => abs_pos.mpr (sub_ne_zero.mpr h)
  have q1' : x ≠ a / 2 → 0 < |a / 2 - x| := fun h => abs_pos.mpr (sub_ne_zero.mpr h.symm)
  have q2 : y ≠ b / 2 → 0 < |y - b / 2| := fun h => abs_pos.mpr (sub_ne_zero.mpr h)
  have q2' : y ≠ b / 2 → 0 < |b / 2 - y| := fun h => abs_pos.mpr (sub_ne_zero.mpr h.symm)
  have q3 : 0 < |a / 2 + x| := abs_pos.mpr (by positivity)
  have q3' : 0 < |x + a / 2| := abs_pos.mpr (by positivity)
  have q4 : 0 < |b / 2 + y| := abs_pos.mpr (by positivity)
  have q4' : 0 < |y + b / 2| := abs_pos.mpr (by positivity)
  dsimp only
  unfold subRect
  simp only [fle_real, flt_real, r_div, r_lit, r_sub, r_add, r_abs, Rat.cast_ofNat]
  rcases k with _ | _ | _ | _ | _ | k
  · omega
  all_goals try (exfalso; omega)
  all_goals
    rcases lt_or_ge (a / 2) x with c1 | c1 <;> rcases lt_or_ge (b / 2) y with c2 | c2
  all_goals
    simp only [c1, c2, not_lt.mpr, not_le.mpr, and_true, and_false, if_true, if_false]
  all_goals refine ⟨abs_nonneg _, abs_nonneg _, ?_, ?_⟩
  all_goals first | exact q1 | exact q1' | exact q2 | exact q2' | exact fun _ => q3 | exact fun _ => q3' | exact fun _ => q4 | exact fun _ => q4'

/-- C66, exact arithmetic: for a multiple of 64 points, a rectangle with positive sides and a
positive sound speed, whatever the device's schedule and the earlier content of its buffer, every
sample of the GPU version is what every complete run of the CPU version with the first delay for all
points gives, with any number of threads and any schedule.  (Excluded: the sample taken exactly when
the wave front is in the aperture plane, for a point exactly over an edge line, where the CPU
divides by zero.) -/
theorem C66_same_as_cpu (C : AnaCall ℝ) (a b : ℝ) (hk : C.kind = .rect a b) (h : C.ArgsOk)
    (ha : 0 < a) (hb : 0 < b) (hcp : 0 < C.cp)
    (h64 : C.No % 64 = 0) (fresh G : ℕ → ℝ) (hg : C.GpuRun a b fresh G)
    (H : Buf ℝ) (hH : H.size = C.nt * C.No)
    (nth : ℕ) (h1 : 1 ≤ nth) (as : List Act) (hab : Act.abort ∉ as) (s' : Sys ℝ (Prog ℝ SIRError))
    (hrun : C.firstDelay.drv.Run nth H as s') (n : ℕ) (hn : n < C.No) (it : ℕ) (hit : it < C.nt)
    (hx : ¬ (C.cp * C.firstDelay.time n it = |C.zo n / 1000| ∧ (|C.xo n| = a / 2 ∨ |C.yo n| = b / 2))) :
    G (C.nt * n + it) = s'.mem.data (n * C.nt + it) := by
  refine C66_any_arithmetic C a b hk h h64 fresh G hg H hH nth h1 as hab s' hrun n hn it hit ?_
  intro k k1 k4
  have e : ∀ x : ℝ, |x| / 1000 = |x / 1000| := fun x => by rw [abs_div]; norm_num
  have key : 0 ≤ cornerAt (C.xo n) (C.yo n) (C.zo n) a b C.dt (C.delay.data 0) C.cp k it := by
    unfold cornerAt
    dsimp only
    have sub := subRect_real (|C.xo n| / 1000) (|C.yo n| / 1000) (a / 1000) (b / 1000) k k1 k4
      (by positivity) (by positivity) (by positivity) (by positivity)
    dsimp only at sub
    simp only [toM_real, r_abs]
    refine corner_nonneg _ _ _ _ _ hcp sub.1 sub.2.1 ?_
    intro ht
    have hn' : ¬ (|C.xo n| = a / 2 ∨ |C.yo n| = b / 2) := fun g => hx ⟨ht, g⟩
    rw [not_or] at hn'
    exact ⟨sub.2.2.1 fun g => hn'.1 (by linarith), sub.2.2.2 fun g => hn'.2 (by linarith)⟩
  rcases key.lt_or_eq with g | g
  · left
    have : flt (lit 0) (cornerAt (C.xo n) (C.yo n) (C.zo n) a b C.dt (C.delay.data 0) C.cp k it) := by
      rw [flt_real, r_lit, Rat.cast_zero]; exact g
    exact this
  · right
    intro z
    have e1 : rectTerm (C.xo n) (C.yo n) (C.zo n) a b C.dt (C.delay.data 0) C.cp k it =
      (subRect (toM (Arith.abs (C.xo n))) (toM (Arith.abs (C.yo n))) (toM a) (toM b) k).2.2 *.
        cornerAt (C.xo n) (C.yo n) (C.zo n) a b C.dt (C.delay.data 0) C.cp k it := rfl
    rw [e1, ← g, r_mul, r_add, mul_zero, add_zero]

/-- C66: with one delay for all points (the only case in which the two versions are given the same
problem) the CPU version itself is the reference. -/
theorem C66_single_delay (C : AnaCall ℝ) (a b : ℝ) (hk : C.kind = .rect a b) (h : C.ArgsOk)
    (hd : C.delayType = .single)
    (ha : 0 < a) (hb : 0 < b) (hcp : 0 < C.cp)
    (h64 : C.No % 64 = 0) (fresh G : ℕ → ℝ) (hg : C.GpuRun a b fresh G)
    (H : Buf ℝ) (hH : H.size = C.nt * C.No)
    (nth : ℕ) (h1 : 1 ≤ nth) (as : List Act) (hab : Act.abort ∉ as) (s' : Sys ℝ (Prog ℝ SIRError))
    (hrun : C.drv.Run nth H as s') (n : ℕ) (hn : n < C.No) (it : ℕ) (hit : it < C.nt)
    (hx : ¬ (C.cp * C.time n it = |C.zo n / 1000| ∧ (|C.xo n| = a / 2 ∨ |C.yo n| = b / 2))) :
    G (C.nt * n + it) = s'.mem.data (n * C.nt + it) := by
  have hs : C.Sized H := ⟨h.ro, h.delay, hH⟩
  have hs' : C.firstDelay.Sized H := ⟨h.ro, rfl, hH⟩
  have hdel : ∀ n, C.firstDelay.delayAt n = C.delayAt n := by
    intro n
    unfold AnaCall.delayAt AnaCall.firstDelay
    rw [hd]
  obtain ⟨_, as2, s2, hab2, hr2⟩ := AnaCall.terminates hs' 1
  rw [C66_same_as_cpu C a b hk h ha hb hcp h64 fresh G hg H hH 1 le_rfl as2 hab2 s2 hr2 n hn it hit
    (by unfold AnaCall.time at hx ⊢; rw [hdel]; exact hx)]
  have e1 : s2.mem.data (n * C.nt + it) = C.firstDelay.sample n it :=
    AnaCall.run_samples hs' 1 le_rfl as2 hab2 s2 hr2 n hn it hit
  rw [e1, AnaCall.run_samples hs nth h1 as hab s' hrun n hn it hit]
  unfold AnaCall.sample
  rw [hdel]
  rfl

/-! ### Concrete cases -/

section ExReal

/-- 64 points in front of a 10 mm square. -/
noncomputable def exRectGpu : AnaCall ℝ where
  kind := .rect 10 10
  Ro := { size := 192, data := fun i => if i < 64 then i else if i < 128 then 1 else 20 }
  No := 64
  dt := 0.1
  nt := 200
  delayType := .single
  delay := { size := 1, data := fun _ => 0 }
  v := 1
  cp := 1500

-- C66: the GPU version ends, and agrees with the CPU version in sample 150 of point 3
example (fresh : ℕ → ℝ) : ∃ G, exRectGpu.GpuRun 10 10 fresh G :=
  (C66_defined exRectGpu 10 10 ⟨rfl, rfl, by decide⟩ (by decide) (by decide) fresh).1

example (fresh G : ℕ → ℝ) (hg : exRectGpu.GpuRun 10 10 fresh G) (H : Buf ℝ) (hH : H.size = 200 * 64)
    (as : List Act) (hab : Act.abort ∉ as) (s' : Sys ℝ (Prog ℝ SIRError))
    (hrun : exRectGpu.drv.Run 4 H as s') : G (200 * 3 + 150) = s'.mem.data (3 * 200 + 150) :=
  C66_single_delay exRectGpu 10 10 rfl ⟨rfl, rfl, by decide⟩ rfl (by norm_num) (by norm_num)
    (by norm_num [exRectGpu]) (by decide) fresh G hg H hH 4 (by decide) as hab s' hrun 3 (by decide) 150
    (by decide) (by
      rintro ⟨_, h | h⟩
      · norm_num [AnaCall.xo, exRectGpu] at h
      · norm_num [AnaCall.yo, exRectGpu] at h)

end ExReal

section ExToy
attribute [local instance] toyArith

/-- 64 points with a delay each: all zero but that of point 1. -/
def exRectDelays : AnaCall Int where
  kind := .rect 20000 20000
  Ro := { size := 192, data := fun i => if i < 128 then 0 else 4000 }
  No := 64
  dt := 0
  nt := 1
  delayType := .multiple
  delay := { size := 64, data := fun i => if i = 1 then 1000000 else 0 }
  v := 1
  cp := 4

/-- C66: the GPU version ignores all delays but the first: for this call (64 points, one delay for
each) it returns a zero response for point 1, every complete run of the CPU version a nonzero one. -/
theorem C66_delays_ignored : exRectDelays.ArgsOk ∧ (∀ fresh, ∃ G, exRectDelays.GpuRun 20000 20000 fresh G) ∧
    (∀ fresh G, exRectDelays.GpuRun 20000 20000 fresh G → G 1 = 0) ∧
    ∀ (H : Buf Int), H.size = 64 → ∀ nth, 1 ≤ nth → ∀ as, Act.abort ∉ as → ∀ s',
      exRectDelays.drv.Run nth H as s' → s'.mem.data 1 = 4 := by
  have ok : exRectDelays.ArgsOk := ⟨rfl, rfl, by decide⟩
  refine ⟨ok, fun fresh => (C66_defined exRectDelays 20000 20000 ok (by decide) (by decide) fresh).1, ?_, ?_⟩
  · intro fresh G hg
    exact (gpuRun_samples exRectDelays 20000 20000 ok rfl fresh G hg 1 (by decide) 0 (by decide)).trans rfl
  · intro H hH nth h1 as hab s' hrun
    have hs : exRectDelays.Sized H := ⟨rfl, rfl, hH⟩
    exact (AnaCall.run_samples hs nth h1 as hab s' hrun 1 (by decide) 0 (by decide)).trans rfl

end ExToy

section ExNaN

/-- Integers with an undefined value; division by zero is undefined. -/
@[reducible] def nanArith2 : Arith (Option Int) where
  lit q := some (q.num / q.den)
  ofInt i := some i
  pi := some 3
  add a b := a.bind fun a => b.map fun b => a + b
  sub a b := a.bind fun a => b.map fun b => a - b
  mul a b := a.bind fun a => b.map fun b => a * b
  div a b := a.bind fun a => b.bind fun b => if b = 0 then none else some (a / b)
  neg a := a.map fun a => -a
  sqrt a := a
  abs a := a.map fun a => (a.natAbs : Int)
  sin a := a
  cos a := a
  asin a := a
  acos a := a
  atan a := a
  exp a := a
  log a := a
  le a b := match a, b with | some a, some b => decide (a ≤ b) | _, _ => false
  lt a b := match a, b with | some a, some b => decide (a < b) | _, _ => false
  eq a b := match a, b with | some a, some b => decide (a = b) | _, _ => false
  rint a := a
  trunc a := a

attribute [local instance] nanArith2

/-- 64 points on the edge of the aperture, sampled when the wave front is in the plane. -/
def exRectEdge : AnaCall (Option Int) where
  kind := .rect (some 20000) (some 20000)
  Ro := { size := 192, data := fun i => if i < 64 then some 10000 else some 0 }
  No := 64
  dt := some 0
  nt := 1
  delayType := .single
  delay := { size := 1, data := fun _ => some 0 }
  v := some 1
  cp := some 4

/-- C66: in the excluded case the versions differ: with an arithmetic that has an undefined value
(NaN) the CPU version divides 0 by 0 and returns NaN, the GPU version leaves such contributions out. -/
theorem C66_edge : exRectEdge.ArgsOk ∧
    (∀ fresh G, exRectEdge.GpuRun (some 20000) (some 20000) fresh G → G 0 = some 2) ∧
    ∀ (H : Buf (Option Int)), H.size = 64 → ∀ nth, 1 ≤ nth → ∀ as, Act.abort ∉ as → ∀ s',
      exRectEdge.drv.Run nth H as s' → s'.mem.data 0 = none := by
  have ok : exRectEdge.ArgsOk := ⟨rfl, rfl, by decide⟩
  refine ⟨ok, ?_, ?_⟩
  · intro fresh G hg
    exact (gpuRun_samples exRectEdge _ _ ok rfl fresh G hg 0 (by decide) 0 (by decide)).trans rfl
  · intro H hH nth h1 as hab s' hrun
    have hs : exRectEdge.Sized H := ⟨rfl, rfl, hH⟩
    exact (AnaCall.run_samples hs nth h1 as hab s' hrun 0 (by decide) 0 (by decide)).trans rfl

end ExNaN

end Dream
