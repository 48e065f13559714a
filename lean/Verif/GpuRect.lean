import Verif.Gpu
import Verif.Analytic

/-
The OpenCL kernel opencl/rect_sir.cl and its host function opencl/cl_rect_sir.cc, written here on
their own.
-/

namespace Dream
open Arith

variable {F : Type} [Arith F]

/-- The four `if` statements that set `s_k`, `l_k`, `g_k`, one after the other, opencl/rect_sir.cl
41-161.  `p` are the values before (the variables live across the passes over `k`). -/
def clSub (xo yo a b : F) (k : Nat) (p : F × F × F) : F × F × F :=
  let a2 := a /. lit 2
  let b2 := b /. lit 2
  -- inside the aperture
  let p := if fle xo a2 ∧ fle yo b2 then
    (match k with
    | 1 => (abs (a2 -. xo), abs (b2 -. yo), lit 1)
    | 2 => (abs (xo +. a2), abs (b2 -. yo), lit 1)
    | 3 => (abs (xo +. a2), abs (yo +. b2), lit 1)
    | 4 => (abs (a2 -. xo), abs (b2 -. yo), lit 1)
    | _ => p) else p
  -- inside a/2 but outside b/2
  let p := if fle xo a2 ∧ flt b2 yo then
    (match k with
    | 1 => (abs (a2 -. xo), abs (yo -. b2), lit (-1))
    | 2 => (abs (a2 +. xo), abs (yo -. b2), lit (-1))
    | 3 => (abs (a2 +. xo), abs (b2 +. yo), lit 1)
    | 4 => (abs (a2 -. xo), abs (b2 +. yo), lit 1)
    | _ => p) else p
  -- inside b/2 but outside a/2
  let p := if flt a2 xo ∧ fle yo b2 then
    (match k with
    | 1 => (abs (xo -. a2), abs (b2 -. yo), lit (-1))
    | 2 => (abs (a2 +. xo), abs (b2 -. yo), lit 1)
    | 3 => (abs (a2 +. xo), abs (b2 +. yo), lit 1)
    | 4 => (abs (xo -. a2), abs (b2 +. yo), lit (-1))
    | _ => p) else p
  -- outside both
  if flt a2 xo ∧ flt b2 yo then
    (match k with
    | 1 => (abs (xo -. a2), abs (yo -. b2), lit 1)
    | 2 => (abs (a2 +. xo), abs (yo -. b2), lit (-1))
    | 3 => (abs (a2 +. xo), abs (b2 +. yo), lit 1)
    | 4 => (abs (xo -. a2), abs (yo +. b2), lit (-1))
    | _ => p) else p

/-- `a_k` at time `t`, opencl/rect_sir.cl 163-186.  `native_sqrt` is taken to be `sqrt`. -/
def clCorner (zo s l cp t : F) : F :=
  let cp2pi := cp /. (lit 2 *. pi)
  let tz := zo /. cp
  let tau1 := tz
  let tau2 := sqrt (zo *. zo +. s *. s) /. cp
  let tau3 := sqrt (zo *. zo +. l *. l) /. cp
  let tau4 := sqrt (zo *. zo +. l *. l +. s *. s) /. cp
  let ak := lit 0
  let ak := if fle tau1 t ∧ fle t tau4 then ak +. cp /. lit 4 else ak
  let ak := if fle tau2 t ∧ fle t tau4 then
      ak -. cp2pi *. acos (s /. (cp *. sqrt (t *. t -. tz *. tz))) else ak
  if fle tau3 t ∧ fle t tau4 then
    ak -. cp2pi *. acos (l /. (cp *. sqrt (t *. t -. tz *. tz))) else ak

/-- One pass over the samples, opencl/rect_sir.cl 170-192. -/
def clRectPass (zo dt : F) (nt : Nat) (delay cp : F) (p : F × F × F) : Prog F Unit :=
  Prog.forN (fun it _ =>
    let t := (ofInt it *. dt +. delay) /. lit 1000000
    let ak := clCorner zo p.1 p.2.1 cp t
    if flt (lit 0) ak then
      .rd (it : Int) fun z => .wr (it : Int) (z +. p.2.2 *. ak) (.ret ())
    else .ret ()) nt 0 ()

/-- The loop `for (k=1; k<=4; k++)`, opencl/rect_sir.cl 39-193. -/
def clRectLoop (xo yo zo a b dt : F) (nt : Nat) (delay cp : F) : Prog F Unit :=
  let p1 := clSub xo yo a b 1 (lit 0, lit 0, lit 0)
  let p2 := clSub xo yo a b 2 p1
  let p3 := clSub xo yo a b 3 p2
  let p4 := clSub xo yo a b 4 p3
  (clRectPass zo dt nt delay cp p1).bind fun _ =>
  (clRectPass zo dt nt delay cp p2).bind fun _ =>
  (clRectPass zo dt nt delay cp p3).bind fun _ =>
  clRectPass zo dt nt delay cp p4

/-- Arguments of the kernel `rect_sir`, opencl/rect_sir.cl 1-10 (`v` is not used by it). -/
structure ClRectArgs (F : Type) where
  Ro : Buf F
  No : Nat
  a : F
  b : F
  dt : F
  nt : Nat
  delay : F
  v : F
  cp : F

/-- Work-item `no`, opencl/rect_sir.cl 12-196; `Ro[no + No*1]` and `&H[0+nt*no]` with `int`
arithmetic. -/
def clRectSir (A : ClRectArgs F) (no : Nat) : Prog F Unit :=
  (Prog.lift (A.Ro.read (no : Int))).bind fun xo =>
  (Prog.lift (int32 ((no : Int) + A.No * 1))).bind fun i =>
  (Prog.lift (A.Ro.read i)).bind fun yo =>
  (Prog.lift (int32 ((no : Int) + A.No * 2))).bind fun i =>
  (Prog.lift (A.Ro.read i)).bind fun zo =>
  (Prog.lift (int32 (0 + A.nt * no))).bind fun _ =>
  (clClear A.nt).bind fun _ =>
  clRectLoop (abs xo /. lit 1000) (abs yo /. lit 1000) (zo /. lit 1000) (A.a /. lit 1000)
    (A.b /. lit 1000) A.dt A.nt A.delay A.cp

/-- What `rect_sir (..., "gpu")` passes on, extra_src/oct_rect_sir.cc 229: `delay[0]` for all points. -/
def AnaCall.gpuArgs (C : AnaCall F) (a b : F) : Outcome (ClRectArgs F) :=
  (C.delay.read 0).bind fun d => .ok ⟨C.Ro, C.No, a, b, C.dt, C.nt, d, C.v, C.cp⟩

/-- `H` is a result of `rect_sir (..., "gpu")`: the host function opencl/cl_rect_sir.cc (launch with
work groups of 64, then `clEnqueueReadBuffer` of the whole buffer); `fresh` is what the device
buffer happens to contain. -/
def AnaCall.GpuRun (C : AnaCall F) (a b : F) (fresh H : Nat → F) : Prop :=
  ∃ A, C.gpuArgs a b = .ok A ∧ Launched A.nt A.No (clRectSir A) fresh H

/-! ### What the kernel computes -/

theorem clSub_eq (xo yo a b : F) (k : Nat) (hk : 1 ≤ k ∧ k ≤ 4) (p : F × F × F)
    (hp : ¬ (flt (a /. lit 2) xo ∧ flt (b /. lit 2) yo) → ¬ (flt (a /. lit 2) xo ∧ fle yo (b /. lit 2)) →
      ¬ (fle xo (a /. lit 2) ∧ flt (b /. lit 2) yo) → ¬ (fle xo (a /. lit 2) ∧ fle yo (b /. lit 2)) →
      p = (lit 0, lit 0, lit 0)) :
    clSub xo yo a b k p = subRect xo yo a b k := by
  unfold clSub subRect
  obtain ⟨h1, h2⟩ := hk
  dsimp only
  by_cases c1 : flt (a /. lit 2) xo ∧ flt (b /. lit 2) yo
  · rw [if_pos c1, if_pos c1]
    rcases k with _ | _ | _ | _ | _ | k <;> first | rfl | omega
  · rw [if_neg c1, if_neg c1]
    by_cases c2 : flt (a /. lit 2) xo ∧ fle yo (b /. lit 2)
    · rw [if_pos c2, if_pos c2]
      rcases k with _ | _ | _ | _ | _ | k <;> first | rfl | omega
    · rw [if_neg c2, if_neg c2]
      by_cases c3 : fle xo (a /. lit 2) ∧ flt (b /. lit 2) yo
      · rw [if_pos c3, if_pos c3]
        rcases k with _ | _ | _ | _ | _ | k <;> first | rfl | omega
      · rw [if_neg c3, if_neg c3]
        by_cases c4 : fle xo (a /. lit 2) ∧ fle yo (b /. lit 2)
        · rw [if_pos c4, if_pos c4]
          rcases k with _ | _ | _ | _ | _ | k <;> first | rfl | omega
        · rw [if_neg c4, if_neg c4]
          exact hp c1 c2 c3 c4

theorem subRect_none (xo yo a b : F) (k : Nat)
    (c1 : ¬ (flt (a /. lit 2) xo ∧ flt (b /. lit 2) yo)) (c2 : ¬ (flt (a /. lit 2) xo ∧ fle yo (b /. lit 2)))
    (c3 : ¬ (fle xo (a /. lit 2) ∧ flt (b /. lit 2) yo)) (c4 : ¬ (fle xo (a /. lit 2) ∧ fle yo (b /. lit 2))) :
    subRect xo yo a b k = (lit 0, lit 0, lit 0) := by
  unfold subRect
  dsimp only
  rw [if_neg c1, if_neg c2, if_neg c3, if_neg c4]

theorem clCorner_eq (zo s l cp t : F) : clCorner zo s l cp t = rectCorner zo s l cp t := rfl

/-- Sub-rectangle `k`'s corner value `a_k` at sample `it`. -/
def cornerAt (xo yo zo a b dt delay cp : F) (k it : Nat) : F :=
  let p := subRect (toM (abs xo)) (toM (abs yo)) (toM a) (toM b) k
  rectCorner (toM zo) p.1 p.2.1 cp (sampleTime dt delay it)

/-- `if (a_k > 0.0) h[it] += g_k * a_k;` -/
def addPos (xo yo zo a b dt delay cp : F) (k it : Nat) (z : F) : F :=
  if flt (lit 0) (cornerAt xo yo zo a b dt delay cp k it) then
    z +. rectTerm xo yo zo a b dt delay cp k it else z

/-- Sample `it` the kernel leaves. -/
def clRectSample (xo yo zo a b dt delay cp : F) (it : Nat) : F :=
  addPos xo yo zo a b dt delay cp 4 it (addPos xo yo zo a b dt delay cp 3 it
    (addPos xo yo zo a b dt delay cp 2 it (addPos xo yo zo a b dt delay cp 1 it (lit 0))))

theorem clRectPass_run (xo yo zo a b dt : F) (nt : Nat) (delay cp : F) (k : Nat) (c : Nat → F) :
    (clRectPass (toM zo) dt nt delay cp
      (subRect (toM (abs xo)) (toM (abs yo)) (toM a) (toM b) k)).runCol nt c =
      .ok ((fun q => if q < nt then addPos xo yo zo a b dt delay cp k q (c q) else c q), ()) := by
  unfold clRectPass
  refine Prog.forN_pointwise nt nt _ (fun q z => addPos xo yo zo a b dt delay cp k q z) ?_ c
  intro i hi c
  dsimp only
  unfold addPos
  have e : clCorner (toM zo) (subRect (toM (abs xo)) (toM (abs yo)) (toM a) (toM b) k).1
      (subRect (toM (abs xo)) (toM (abs yo)) (toM a) (toM b) k).2.1 cp
      ((ofInt (i : Int) *. dt +. delay) /. lit 1000000) = cornerAt xo yo zo a b dt delay cp k i := rfl
  rw [e]
  by_cases h : flt (lit 0) (cornerAt xo yo zo a b dt delay cp k i)
  · rw [if_pos h, if_pos h]
    simp only [Prog.runCol]
    rw [if_pos (by omega), if_pos (by omega)]
    simp only [Int.toNat_natCast]
    rfl
  · rw [if_neg h, if_neg h]
    simp only [Prog.runCol]
    congr 2
    funext q
    by_cases hq : q = i
    · rw [if_pos hq, hq]
    · rw [if_neg hq]

theorem clRectLoop_run (xo yo zo a b dt : F) (nt : Nat) (delay cp : F) (c : Nat → F) :
    ((clClear nt).bind fun _ => clRectLoop (abs xo /. lit 1000) (abs yo /. lit 1000) (zo /. lit 1000)
      (a /. lit 1000) (b /. lit 1000) dt nt delay cp).runCol nt c =
      .ok ((fun q => if q < nt then clRectSample xo yo zo a b dt delay cp q else c q), ()) := by
  have hclear : (clClear nt).runCol nt c = .ok ((fun i => if i < nt then lit 0 else c i), ()) := by
    unfold clClear
    refine Prog.forN_pointwise nt nt _ (fun _ _ => lit 0) ?_ c
    intro i hi c
    simp only [Prog.runCol]
    rw [if_pos (by omega)]
    rfl
  rw [Prog.runCol_bind, hclear, Outcome.ok_bind]
  unfold clRectLoop
  dsimp only
  have e1 : clSub (abs xo /. lit 1000) (abs yo /. lit 1000) (a /. lit 1000) (b /. lit 1000) 1
      (lit 0, lit 0, lit 0) = subRect (toM (abs xo)) (toM (abs yo)) (toM a) (toM b) 1 :=
    clSub_eq _ _ _ _ 1 (by omega) _ fun _ _ _ _ => rfl
  rw [e1]
  have e2 : clSub (abs xo /. lit 1000) (abs yo /. lit 1000) (a /. lit 1000) (b /. lit 1000) 2
      (subRect (toM (abs xo)) (toM (abs yo)) (toM a) (toM b) 1) =
      subRect (toM (abs xo)) (toM (abs yo)) (toM a) (toM b) 2 :=
    clSub_eq _ _ _ _ 2 (by omega) _ fun c1 c2 c3 c4 => subRect_none _ _ _ _ _ c1 c2 c3 c4
  rw [e2]
  have e3 : clSub (abs xo /. lit 1000) (abs yo /. lit 1000) (a /. lit 1000) (b /. lit 1000) 3
      (subRect (toM (abs xo)) (toM (abs yo)) (toM a) (toM b) 2) =
      subRect (toM (abs xo)) (toM (abs yo)) (toM a) (toM b) 3 :=
    clSub_eq _ _ _ _ 3 (by omega) _ fun c1 c2 c3 c4 => subRect_none _ _ _ _ _ c1 c2 c3 c4
  rw [e3]
  have e4 : clSub (abs xo /. lit 1000) (abs yo /. lit 1000) (a /. lit 1000) (b /. lit 1000) 4
      (subRect (toM (abs xo)) (toM (abs yo)) (toM a) (toM b) 3) =
      subRect (toM (abs xo)) (toM (abs yo)) (toM a) (toM b) 4 :=
    clSub_eq _ _ _ _ 4 (by omega) _ fun c1 c2 c3 c4 => subRect_none _ _ _ _ _ c1 c2 c3 c4
  rw [e4]
  rw [Prog.runCol_bind]
  rw [show zo /. lit 1000 = toM zo from rfl]
  rw [clRectPass_run xo yo zo a b dt nt delay cp 1, Outcome.ok_bind, Prog.runCol_bind,
    clRectPass_run xo yo zo a b dt nt delay cp 2, Outcome.ok_bind, Prog.runCol_bind,
    clRectPass_run xo yo zo a b dt nt delay cp 3, Outcome.ok_bind,
    clRectPass_run xo yo zo a b dt nt delay cp 4]
  congr 2
  funext q
  by_cases h : q < nt
  · simp only [if_pos h, clRectSample]
  · simp only [if_neg h]

theorem int32_small (i : Int) (h : i.natAbs < 2147483648) : int32 i = .ok i := by
  unfold int32; rw [if_pos (.inl h)]

theorem int32_or (i : Int) : int32 i = .ok i ∨ int32 i = .ub .cast := by
  unfold int32; split <;> simp

/-- A work-item leaves exactly the samples in its column, or an `int` overflows. -/
theorem clRectSir_run (A : ClRectArgs F) (hRo : A.Ro.size = 3 * A.No) (no : Nat) (hno : no < A.No)
    (c : Nat → F) :
    ((clRectSir A no).runCol A.nt c = .ok ((fun q => if q < A.nt then
      clRectSample (A.Ro.data no) (A.Ro.data (no + A.No)) (A.Ro.data (no + 2 * A.No)) A.a A.b A.dt
        A.delay A.cp q else c q), ()) ∨ (clRectSir A no).runCol A.nt c = .ub .cast) ∧
    (3 * A.No < 2147483648 → A.nt * A.No < 2147483648 →
      ∃ r, (clRectSir A no).runCol A.nt c = .ok r) := by
  have h1 : A.Ro.read (no : Int) = .ok (A.Ro.data no) := by
    unfold Buf.read; rw [if_pos (by omega)]; rfl
  have h2 : A.Ro.read ((no : Int) + A.No * 1) = .ok (A.Ro.data (no + A.No)) := by
    unfold Buf.read
    rw [if_pos (by omega), show ((no : Int) + A.No * 1).toNat = no + A.No by omega]
  have h3 : A.Ro.read ((no : Int) + A.No * 2) = .ok (A.Ro.data (no + 2 * A.No)) := by
    unfold Buf.read
    rw [if_pos (by omega), show ((no : Int) + A.No * 2).toNat = no + 2 * A.No by omega]
  unfold clRectSir
  rw [h1]
  simp only [Prog.lift, Prog.bind]
  constructor
  · rcases int32_or ((no : Int) + A.No * 1) with g | g
    · rw [g]
      simp only [Prog.lift, Prog.bind]
      rw [h2]
      simp only [Prog.lift, Prog.bind]
      rcases int32_or ((no : Int) + A.No * 2) with g | g
      · rw [g]
        simp only [Prog.lift, Prog.bind]
        rw [h3]
        simp only [Prog.lift, Prog.bind]
        rcases int32_or (0 + A.nt * no) with g | g
        · rw [g]
          simp only [Prog.lift, Prog.bind]
          left
          exact clRectLoop_run _ _ _ _ _ _ _ _ _ _
        · rw [g]; right; rfl
      · rw [g]; right; rfl
    · rw [g]; right; rfl
  · intro s1 s2
    have g1 : int32 ((no : Int) + A.No * 1) = .ok ((no : Int) + A.No * 1) := int32_small _ (by omega)
    have g2 : int32 ((no : Int) + A.No * 2) = .ok ((no : Int) + A.No * 2) := int32_small _ (by omega)
    have hle : A.nt * no ≤ A.nt * A.No := Nat.mul_le_mul_left _ (by omega)
    have g3 : int32 (0 + A.nt * no) = .ok (0 + A.nt * no) := by
      apply int32_small
      have : ((0 : Int) + A.nt * no).natAbs = A.nt * no := by
        rw [Int.zero_add, ← Int.natCast_mul, Int.natAbs_natCast]
      omega
    rw [g1]
    simp only [Prog.lift, Prog.bind]
    rw [h2]
    simp only [Prog.lift, Prog.bind]
    rw [g2]
    simp only [Prog.lift, Prog.bind]
    rw [h3]
    simp only [Prog.lift, Prog.bind]
    rw [g3]
    exact ⟨_, clRectLoop_run _ _ _ _ _ _ _ _ _ _⟩

end Dream
