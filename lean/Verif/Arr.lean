import Verif.Driver

/-
Array transducers built from rectangular, circular or cylindrical elements:
src/arr_functions.cc, src/dream_arr_rect.cc, src/dream_arr_circ.cc, src/dream_arr_cylind.cc.
-/

namespace Dream
open Arith

variable {F : Type} [Arith F]

/-! ### Common functions of the arrays (src/arr_functions.cc) -/

/-- Aperture of an array. -/
structure Dims (F : Type) where
  xmax : F
  ymax : F
  rmax : F

/-- The loop `for (i=1; i<num_elements; i++) { ret = fabs(g[i]); if (ret > *max) *max = ret; }`
with `k` passes to go, src/arr_functions.cc 67-71, 75-79; `g` points `off` elements into `G`. -/
def maxLoop (G : Buf F) (off : Nat) : (k i : Nat) → F → Outcome F
  | 0, _, cur => .ok cur
  | k + 1, i, cur =>
    (G.read ((off + i : Nat) : Int)).bind fun x =>
      maxLoop G off k (i + 1) (if lt cur (abs x) then abs x else cur)

/-- `max_dim_arr`, src/arr_functions.cc 60-82.  `G` holds `gx`, `gy`, `gz` one after the other
(src/dream_arr_rect.cc 108-110). -/
def maxDimArr (G : Buf F) (num : Nat) : Outcome (Dims F) :=
  (G.read 0).bind fun x0 =>
  (maxLoop G 0 (num - 1) 1 (abs x0)).bind fun xm =>
  (G.read (num : Int)).bind fun y0 =>
  (maxLoop G num (num - 1) 1 (abs y0)).bind fun ym =>
  .ok { xmax := xm, ymax := ym, rmax := sqrt (xm *. xm +. ym *. ym) }

/-- `focusing`, src/arr_functions.cc 92-145. -/
def focusing (met : FocusMet) (focal gx gy : F) (d : Dims F) (cp : F) : F :=
  match met with
  | .none => lit 0
  | .x =>
    (sqrt (d.xmax *. d.xmax +. focal *. focal) -. sqrt (gx *. gx +. focal *. focal))
      *. lit 1000 /. cp
  | .y =>
    (sqrt (d.ymax *. d.ymax +. focal *. focal) -. sqrt (gy *. gy +. focal *. focal))
      *. lit 1000 /. cp
  | .xy =>
    (sqrt (d.rmax *. d.rmax +. focal *. focal)
      -. sqrt (gx *. gx +. gy *. gy +. focal *. focal)) *. lit 1000 /. cp
  | .x_y =>
    (sqrt (d.rmax *. d.rmax +. focal *. focal)
      -. (sqrt (gx *. gx +. focal *. focal) +. sqrt (gy *. gy +. focal *. focal)))
      *. lit 1000 /. cp
  | .ud => focal
  | _ => lit 0

/-- `M_PI / (double) 180.0`, src/arr_functions.cc 156. -/
def deg2rad : F := pi /. lit 180

/-- `beamsteering`, src/arr_functions.cc 153-200. -/
def beamsteering (met : SteerMet) (theta phi gx gy : F) (d : Dims F) (cp : F) : F :=
  match met with
  | .none => lit 0
  | .x =>
    let sinx := sin (theta *. deg2rad)
    (d.xmax *. sinx +. gx *. sinx) *. lit 1000 /. cp
  | .y =>
    let siny := sin (phi *. deg2rad)
    (d.ymax *. siny +. gy *. siny) *. lit 1000 /. cp
  | .xy =>
    let sinx := sin (theta *. deg2rad)
    let siny := sin (phi *. deg2rad)
    (d.xmax *. sinx +. gx *. sinx) *. lit 1000 /. cp
      +. (d.ymax *. siny +. gy *. siny) *. lit 1000 /. cp

/-- The formulas of `apodization`, src/arr_functions.cc 210-256, as a function of the distance
`r` of the element to the centre; for `ud` the value `u` of the user's vector is the weight. -/
def apodFormula (met : ApodMet) (u r rmax par : F) : F :=
  match met with
  | .ud => u
  | .triangle => lit 1 -. abs r /. rmax
  | .gauss => exp (neg (par *. r *. r) /. (rmax *. rmax))
  | .raisedCosine => par +. cos (r *. pi /. rmax)
  | .hann => lit (1 / 2) *. (lit 1 -. cos ((r +. rmax) *. pi /. rmax))
  | .hamming =>
    let a0 := lit 25 /. lit 46
    a0 -. (lit 1 -. a0) *. cos ((r +. rmax) *. pi /. rmax)
  | .simplySupported => lit 1 -. r *. r /. (rmax *. rmax)
  | .clamped =>
    (lit 1 -. r *. r /. (rmax *. rmax)) *. (lit 1 -. r *. r /. (rmax *. rmax))

/-- `apodization`, src/arr_functions.cc 210-256: only `ud` reads the vector. -/
def apodization (met : ApodMet) (n : Nat) (vec : Buf F) (gx gy rmax par : F) : Outcome F :=
  let r := sqrt (gx *. gx +. gy *. gy)
  match met with
  | .ud => vec.read (n : Int)
  | met => .ok (apodFormula met (lit 0) r rmax par)

/-! ### Serial array functions -/

/-- Array arguments: number of elements, grid `G` (`num`×3), focusing, steering, apodization. -/
structure ArrPar (F : Type) where
  num : Nat
  G : Buf F
  focMet : FocusMet
  focal : Buf F
  steerMet : SteerMet
  theta : F
  phi : F
  doApod : Bool
  apod : Buf F
  apodMet : ApodMet
  apodPar : F

/-- Element types of the arrays. -/
inductive ArrKern (F : Type)
  | rect (a b : F)
  | circ (R : F)
  | cylind (a b Rcurv : F)

/-- The element as a single transducer. -/
def ArrKern.kern (K : ArrKern F) (weight : F) : Kern F :=
  match K with
  | .rect a b => .rect weight a b
  | .circ R => .circ weight R
  | .cylind a b Rc => .cylind weight a b Rc

/-- Does the serial array function clear the column?  The lossy ones of src/dream_arr_rect.cc
(257-259) and src/dream_arr_circ.cc (258-260) do; the lossless ones and both of
src/dream_arr_cylind.cc do not. -/
def ArrKern.clears (K : ArrKern F) (att : Option (AttResp F)) : Bool :=
  match K, att with
  | .rect .., some _ => true
  | .circ .., some _ => true
  | _, _ => false

/-- What is computed for element `n` before the element's response. -/
structure Elem (F : Type) where
  gx : F
  gy : F
  gz : F
  foc : F
  steer : F
  weight : F

/-- Delays and weight of element `n`, src/dream_arr_rect.cc 211-225. -/
def ArrPar.elem (A : ArrPar F) (d : Dims F) (cp : F) (n : Nat) : Outcome (Elem F) :=
  (A.G.read (n : Int)).bind fun gx =>
  (A.G.read ((A.num + n : Nat) : Int)).bind fun gy =>
  (A.G.read ((2 * A.num + n : Nat) : Int)).bind fun gz =>
  (if A.focMet = .ud then A.focal.read (n : Int)
    else (A.focal.read 0).map fun f => focusing A.focMet f gx gy d cp).bind fun foc =>
  (if A.doApod then apodization A.apodMet n A.apod gx gy d.rmax A.apodPar
    else .ok (lit 1)).bind fun w =>
  .ok { gx := gx, gy := gy, gz := gz, foc := foc,
        steer := beamsteering A.steerMet A.theta A.phi gx gy d cp, weight := w }

/-- The call of the element's serial function, src/dream_arr_rect.cc 228-236. -/
def ArrKern.call (K : ArrKern F) (nt : Nat) (ty : IdxTy) (level : ErrorLevel)
    (att : Option (AttResp F)) (p : Par F) (xo yo zo : F) (e : Elem F) (fuel base : Nat)
    (m : Buf F) : Outcome (Buf F × SIRError) :=
  (K.kern e.weight).serial nt ty level att { p with delay := p.delay -. e.foc -. e.steer }
    (xo -. e.gx) (yo -. e.gy) (zo -. e.gz) fuel base m

/-- The loop over the elements with `k` elements to go, src/dream_arr_rect.cc 209-245. -/
def arrLoop (A : ArrPar F) (K : ArrKern F) (d : Dims F) (nt : Nat) (ty : IdxTy)
    (level : ErrorLevel) (att : Option (AttResp F)) (p : Par F) (xo yo zo : F)
    (fuel base : Nat) : (k n : Nat) → SIRError → Buf F → Outcome (Buf F × SIRError)
  | 0, _, err, m => .ok (m, err)
  | k + 1, n, _, m =>
    (A.elem d p.cp n).bind fun e =>
    (K.call nt ty level att p xo yo zo e fuel base m).bind fun (m', err) =>
      if err = .outOfBounds then .ok (m', err)
      else arrLoop A K d nt ty level att p xo yo zo fuel base k (n + 1) err m'

/-- `dream_arr_rect_serial`, src/dream_arr_rect.cc 192-245, 247-302; `dream_arr_circ_serial`,
src/dream_arr_circ.cc 192-242, 244-299; `dream_arr_cylind_serial`, src/dream_arr_cylind.cc
199-250, 252-305. -/
def arrSerial (A : ArrPar F) (K : ArrKern F) (nt : Nat) (ty : IdxTy)
    (level : ErrorLevel) (att : Option (AttResp F)) (p : Par F) (xo yo zo : F)
    (fuel base : Nat) (m : Buf F) : Outcome (Buf F × SIRError) :=
  (if K.clears att then clearCol base nt m else .ok m).bind fun m =>
  (maxDimArr A.G A.num).bind fun d =>
  arrLoop A K d nt ty level att p xo yo zo fuel base A.num 0 .none m

/-! ### Worker program -/

/-- Control points of the serial array function. -/
inductive APC (F : Type)
  | clear (i : Nat)                        -- `h[i] = 0.0`
  | dims                                   -- `max_dim_arr`
  | next (d : Dims F) (n : Nat) (err : SIRError)  -- loop head for element `n`
  | run (d : Dims F) (n : Nat) (l : KLoc F)       -- inside the element's serial function

/-- Local state of a worker: the observation point and its delay, control point. -/
structure ALoc (F : Type) where
  xo : F
  yo : F
  zo : F
  delay : F
  pc : APC F

/-- Arguments of an array driver such as `ArrRect::dream_arr_rect`
(src/dream_arr_rect.cc 310-322). -/
structure ArrCall (F : Type) where
  A : ArrPar F
  K : ArrKern F
  p : Par F
  att : Option (AttResp F)
  nt : Nat
  ty : IdxTy
  level : ErrorLevel
  No : Nat
  Ro : Buf F
  delayType : DelayType
  delay : Buf F

namespace ArrCall

/-- Reading of observation point and delay, src/dream_arr_rect.cc 123-132. -/
def inputs (D : ArrCall F) (n : Nat) : Outcome (F × F × F × F) :=
  (D.Ro.read (n : Int)).bind fun xo =>
  (D.Ro.read ((n + 1 * D.No : Nat) : Int)).bind fun yo =>
  (D.Ro.read ((n + 2 * D.No : Nat) : Int)).bind fun zo =>
  (D.delay.read (match D.delayType with | .single => 0 | .multiple => (n : Int))).bind fun d =>
  .ok (xo, yo, zo, d)

/-- The call of the serial function for observation point `n`,
src/dream_arr_rect.cc 149-169. -/
def serialAt (D : ArrCall F) (n fuel : Nat) (m : Buf F) : Outcome (Buf F × SIRError) :=
  (D.inputs n).bind fun (xo, yo, zo, d) =>
    arrSerial D.A D.K D.nt D.ty D.level D.att { D.p with delay := d } xo yo zo fuel
      (n * D.nt) m

/-- One step of the serial array function (`arrSerial` split into single steps). -/
def step (D : ArrCall F) (l : ALoc F) : Eff F (ALoc F) :=
  match l.pc with
  | .clear i =>
    if i < D.nt then .wr (i : Int) (lit 0) { l with pc := .clear (i + 1) }
    else .tau { l with pc := .dims }
  | .dims =>
    match maxDimArr D.A.G D.A.num with
    | .ok d => .tau { l with pc := .next d 0 .none }
    | .ub e => .bad e
    | .fuel => .bad .oob
  | .next d n err =>
    if n < D.A.num then
      match D.A.elem d D.p.cp n with
      | .ok e =>
        .tau { l with pc := .run d n ((D.K.kern e.weight).entry
          { D.p with delay := l.delay -. e.foc -. e.steer }
          (l.xo -. e.gx) (l.yo -. e.gy) (l.zo -. e.gz)) }
      | .ub e => .bad e
      | .fuel => .bad .oob
    else .ret err
  | .run d n k =>
    match kernStep D.nt D.ty D.level D.att k with
    | .tau k' => .tau { l with pc := .run d n k' }
    | .ret e =>
      if e = .outOfBounds then .ret e else .tau { l with pc := .next d (n + 1) e }
    | .bad e => .bad e
    | .rd j f => .rd j fun x => { l with pc := .run d n (f x) }
    | .wr j x k' => .wr j x { l with pc := .run d n k' }

/-- State of a worker that has just called the serial array function. -/
def entry (D : ArrCall F) (xo yo zo d : F) : ALoc F where
  xo := xo
  yo := yo
  zo := zo
  delay := d
  pc := if D.K.clears D.att then .clear 0 else .dims

/-- The worker program. -/
def task (D : ArrCall F) : Task F (ALoc F) :=
  effTask (fun n => (D.inputs n).map fun x => D.entry x.1 x.2.1 x.2.2.1 x.2.2.2)
    (fun _ => D.step) (fun n => n * D.nt)

/-- The driver of an array function, src/dream_arr_rect.cc 310-430 and the same text in
src/dream_arr_circ.cc, src/dream_arr_cylind.cc. -/
def drv (D : ArrCall F) : Drv F (ALoc F) where
  No := D.No
  len := D.nt
  base := fun n => n * D.nt
  level := D.level
  begin := fun n => (D.inputs n).map fun x => D.entry x.1 x.2.1 x.2.2.1 x.2.2.2
  step := fun _ => D.step
  serialAt := D.serialAt

/-- Column program of the serial array function. -/
abbrev col (D : ArrCall F) : ColProg F (ALoc F) := effCol (fun _ => D.step) D.nt

/-- Steps of the element's function are steps of the array function. -/
theorem run_steps (D : ArrCall F) (n : Nat) (xo yo zo dl : F) (d : Dims F) (i : Nat)
    {j : Nat} {k : KLoc F} {c : Nat → F} {r : (Nat → F) × SIRError}
    (h : Evals (kernCol D.nt D.ty D.level D.att) n j k c r) :
    (r.2 = .outOfBounds → ∃ j', Evals D.col n j' ⟨xo, yo, zo, dl, .run d i k⟩ c r) ∧
    (r.2 ≠ .outOfBounds → ∃ j', Steps D.col n j' ⟨xo, yo, zo, dl, .run d i k⟩ c
      ⟨xo, yo, zo, dl, .next d (i + 1) r.2⟩ r.1) := by
  induction h with
  | @last l c c' e h1 =>
    simp only [effCol] at h1
    cases hk : kernStep D.nt D.ty D.level D.att l with
    | ret e' =>
      rw [hk] at h1
      simp only [Eff.onCol, Outcome.ok.injEq, Prod.mk.injEq, Sum.inr.injEq] at h1
      obtain ⟨rfl, rfl⟩ := h1
      constructor
      · intro he
        simp only at he
        exact ⟨1, .last (by simp [effCol, step, hk, Eff.onCol, he])⟩
      · intro he
        simp only at he
        exact ⟨1, .more (by simp [effCol, step, hk, Eff.onCol, he]) .refl⟩
    | tau _ => rw [hk] at h1; simp [Eff.onCol] at h1
    | bad _ => rw [hk] at h1; simp [Eff.onCol] at h1
    | rd _ _ => rw [hk] at h1; simp only [Eff.onCol] at h1; split at h1 <;> simp at h1
    | wr _ _ _ => rw [hk] at h1; simp only [Eff.onCol] at h1; split at h1 <;> simp at h1
  | @more q l c c' l' r h1 h2 ih =>
    have hstep : effCol (fun _ => D.step) D.nt n ⟨xo, yo, zo, dl, .run d i l⟩ c =
        .ok (c', .inl ⟨xo, yo, zo, dl, .run d i l'⟩) := by
      simp only [effCol] at h1 ⊢
      simp only [step]
      cases hk : kernStep D.nt D.ty D.level D.att l with
      | ret e' => rw [hk] at h1; simp [Eff.onCol] at h1
      | tau _ =>
        rw [hk] at h1
        simp only [Eff.onCol, Outcome.ok.injEq, Prod.mk.injEq, Sum.inl.injEq] at h1
        obtain ⟨rfl, rfl⟩ := h1
        rfl
      | bad _ => rw [hk] at h1; simp [Eff.onCol] at h1
      | rd a f =>
        rw [hk] at h1
        simp only [Eff.onCol] at h1 ⊢
        split at h1
        · next ha =>
          simp only [Outcome.ok.injEq, Prod.mk.injEq, Sum.inl.injEq] at h1
          obtain ⟨rfl, rfl⟩ := h1
          rw [if_pos ha]
        · simp at h1
      | wr a x f =>
        rw [hk] at h1
        simp only [Eff.onCol] at h1 ⊢
        split at h1
        · next ha =>
          simp only [Outcome.ok.injEq, Prod.mk.injEq, Sum.inl.injEq] at h1
          obtain ⟨rfl, rfl⟩ := h1
          rw [if_pos ha]
        · simp at h1
    constructor
    · intro he
      obtain ⟨j', hj⟩ := ih.1 he
      exact ⟨j' + 1, .more hstep hj⟩
    · intro he
      obtain ⟨j', hj⟩ := ih.2 he
      exact ⟨j' + 1, .more hstep hj⟩

/-- The element's call on a column. -/
theorem _root_.Dream.ArrKern.call_col (K : ArrKern F) (nt : Nat) (ty : IdxTy)
    (level : ErrorLevel) (att : Option (AttResp F)) (p : Par F) (xo yo zo : F) (e : Elem F)
    (fuel base : Nat) (m : Buf F) (hb : base + nt ≤ m.size) :
    K.call nt ty level att p xo yo zo e fuel base m =
      ((K.kern e.weight).onCol nt ty level att { p with delay := p.delay -. e.foc -. e.steer }
        (xo -. e.gx) (yo -. e.gy) (zo -. e.gz) fuel (m.getCol base nt)).map
        (liftS (m.setCol base nt)) :=
  Kern.serial_eq _ _ _ _ _ _ _ _ _ _ _ _ hb

omit [Arith F] in
theorem setCol_setCol (m : Buf F) (base nt : Nat) (c c' : Nat → F) :
    (m.setCol base nt c).setCol base nt c' = m.setCol base nt c' := by
  unfold Buf.setCol
  congr 1
  funext i
  simp only
  split <;> rfl

theorem col_pad (D : ArrCall F) {n k : Nat} {l : ALoc F} {c : Nat → F} {r}
    (h : Evals D.col n k l c r) (hc : ∀ i, D.nt ≤ i → c i = lit 0) :
    ∀ i, D.nt ≤ i → r.1 i = lit 0 := by
  have loc := effTask_local (fun _ => Outcome.fuel) (fun _ => D.step) (fun _ => 0) D.nt
  induction h with
  | last h1 => exact loc.pad _ _ _ _ _ h1 hc
  | more h1 _ ih => exact ih (loc.pad _ _ _ _ _ h1 hc)

theorem kern_pad (nt : Nat) (ty : IdxTy) (level : ErrorLevel) (att : Option (AttResp F))
    {n k : Nat} {l : KLoc F} {c : Nat → F} {r}
    (h : Evals (kernCol nt ty level att) n k l c r) (hc : ∀ i, nt ≤ i → c i = lit 0) :
    ∀ i, nt ≤ i → r.1 i = lit 0 := by
  have loc := effTask_local (fun _ => Outcome.fuel)
    (fun _ => kernStep nt ty level att) (fun _ => 0) nt
  induction h with
  | last h1 => exact loc.pad _ _ _ _ _ h1 hc
  | more h1 _ ih => exact ih (loc.pad _ _ _ _ _ h1 hc)

/-- The element loop and its small-step program. -/
theorem loop_evals (D : ArrCall F) (n : Nat) (xo yo zo dl : F) (d : Dims F) (fuel base : Nat)
    (k : Nat) : ∀ (i : Nat) (err : SIRError) (m m' : Buf F) (e' : SIRError),
    i + k = D.A.num → base + D.nt ≤ m.size →
    arrLoop D.A D.K d D.nt D.ty D.level D.att { D.p with delay := dl } xo yo zo fuel base k i err m
      = .ok (m', e') →
    (err = .none ∨ err = oobErr D.level) →
    ∃ c j, m' = m.setCol base D.nt c ∧ (e' = .none ∨ e' = oobErr D.level) ∧
      Evals D.col n j ⟨xo, yo, zo, dl, .next d i err⟩ (m.getCol base D.nt) (c, e') := by
  induction k with
  | zero =>
    intro i err m m' e' hi hb h herr
    simp only [arrLoop, Outcome.ok.injEq, Prod.mk.injEq] at h
    obtain ⟨rfl, rfl⟩ := h
    refine ⟨_, 1, (Buf.setCol_getCol m base D.nt).symm, herr, .last ?_⟩
    have : ¬ i < D.A.num := by omega
    simp [effCol, step, this, Eff.onCol]
  | succ k ih =>
    intro i err m m' e' hi hb h herr
    simp only [arrLoop] at h
    have hlt : i < D.A.num := by omega
    cases hel : D.A.elem d D.p.cp i with
    | ub _ => rw [hel] at h; simp at h
    | fuel => rw [hel] at h; simp at h
    | ok e =>
      rw [hel] at h
      simp only [Outcome.bind] at h
      rw [ArrKern.call_col _ _ _ _ _ _ _ _ _ _ _ _ _ hb] at h
      cases hon : (D.K.kern e.weight).onCol D.nt D.ty D.level D.att
          { D.p with delay := dl -. e.foc -. e.steer }
          (xo -. e.gx) (yo -. e.gy) (zo -. e.gz) fuel (m.getCol base D.nt) with
      | ub _ => rw [hon] at h; simp at h
      | fuel => rw [hon] at h; simp at h
      | ok r =>
        rw [hon] at h
        simp only [Outcome.map, liftS] at h
        obtain ⟨j1, hj1⟩ := Kern.evals D.nt D.ty D.level D.att n _ _ _ _ _ _ _ _ hon
        have hpad := kern_pad _ _ _ _ hj1 (Job.getCol_pad m base D.nt)
        have hcode := Kern.onCol_err _ _ _ _ _ _ _ _ _ _ _ _ hon
        have h0 : effCol (fun _ => D.step) D.nt n ⟨xo, yo, zo, dl, .next d i err⟩
            (m.getCol base D.nt) = .ok (m.getCol base D.nt, .inl ⟨xo, yo, zo, dl, .run d i
              ((D.K.kern e.weight).entry { D.p with delay := dl -. e.foc -. e.steer }
            (xo -. e.gx) (yo -. e.gy) (zo -. e.gz))⟩) := by
          simp [effCol, step, hlt, hel, Eff.onCol]
        have hrs := run_steps D n xo yo zo dl d i hj1
        by_cases hoob : r.2 = .outOfBounds
        · rw [if_pos hoob] at h
          simp only [Outcome.ok.injEq, Prod.mk.injEq] at h
          obtain ⟨rfl, rfl⟩ := h
          obtain ⟨j2, hj2⟩ := hrs.1 hoob
          exact ⟨r.1, j2 + 1, rfl, hcode, .more h0 hj2⟩
        · rw [if_neg hoob] at h
          obtain ⟨j2, hj2⟩ := hrs.2 hoob
          obtain ⟨c, j3, h1, h2, h3⟩ := ih (i + 1) r.2 (m.setCol base D.nt r.1) m' e' (by omega)
            (by simpa using hb) h hcode
          rw [Job.getCol_set _ _ _ _ hpad] at h3
          rw [setCol_setCol] at h1
          exact ⟨c, j2 + j3 + 1, h1, h2, .more h0 (hj2.evals h3)⟩

theorem clear_steps (D : ArrCall F) (n : Nat) (xo yo zo dl : F) (k : Nat) :
    ∀ (i : Nat) (c : Nat → F), i + k = D.nt → ∃ j, Steps D.col n j ⟨xo, yo, zo, dl, .clear i⟩ c
      ⟨xo, yo, zo, dl, .clear D.nt⟩ (fun q => if i ≤ q ∧ q < D.nt then lit 0 else c q) := by
  induction k with
  | zero =>
    intro i c hi
    have : i = D.nt := by omega
    subst this
    refine ⟨0, ?_⟩
    have : (fun q => if D.nt ≤ q ∧ q < D.nt then lit 0 else c q) = c := by
      funext q; rw [if_neg (by omega)]
    rw [this]
    exact .refl
  | succ k ih =>
    intro i c hi
    obtain ⟨j, hj⟩ := ih (i + 1) (fun q => if q = i then lit 0 else c q) (by omega)
    refine ⟨j + 1, .more (c' := fun q => if q = i then lit 0 else c q)
      (l' := ⟨xo, yo, zo, dl, .clear (i + 1)⟩) ?_ ?_⟩
    · have h1 : i < D.nt := by omega
      simp only [effCol, step, if_pos h1, Eff.onCol]
      rw [if_pos (by omega)]
      simp
    · have : (fun q => if i ≤ q ∧ q < D.nt then lit 0 else c q) =
          (fun q => if i + 1 ≤ q ∧ q < D.nt then lit 0
            else if q = i then lit 0 else c q) := by
        funext q
        by_cases h1 : q = i
        · subst h1; rw [if_pos (by omega), if_neg (by omega), if_pos rfl]
        · by_cases h2 : i + 1 ≤ q ∧ q < D.nt
          · rw [if_pos (by omega), if_pos h2]
          · rw [if_neg (by omega), if_neg h2, if_neg h1]
      rw [this]
      exact hj

/-- If the serial array function returns, the worker program run alone ends with the same
column and code. -/
theorem serialAt_col (D : ArrCall F) (m : Buf F) (hout : D.No * D.nt ≤ m.size) (n : Nat)
    (hn : n < D.No) (fuel : Nat) (r : Buf F × SIRError) (h : D.serialAt n fuel m = .ok r) :
    ∃ l c, D.task.begin n = .ok l ∧ r = (m.setCol (n * D.nt) D.nt c, r.2) ∧
      (∃ j, Evals D.col n j l (m.getCol (n * D.nt) D.nt) (c, r.2)) ∧
      (r.2 = .none ∨ r.2 = oobErr D.level) := by
  unfold serialAt at h
  cases hi : D.inputs n with
  | ub e => rw [hi] at h; simp at h
  | fuel => rw [hi] at h; simp at h
  | ok v =>
    obtain ⟨xo, yo, zo, dl⟩ := v
    rw [hi] at h
    simp only [Outcome.bind] at h
    have hb : n * D.nt + D.nt ≤ m.size := by
      have : (n + 1) * D.nt ≤ D.No * D.nt := Nat.mul_le_mul_right _ hn
      rw [Nat.add_mul, Nat.one_mul] at this
      omega
    simp only [arrSerial] at h
    have key : ∀ (m1 : Buf F), n * D.nt + D.nt ≤ m1.size →
        ((maxDimArr D.A.G D.A.num).bind fun d => arrLoop D.A D.K d D.nt D.ty D.level D.att
          { D.p with delay := dl } xo yo zo fuel (n * D.nt) D.A.num 0 .none m1) = .ok r →
        ∃ c j, r.1 = m1.setCol (n * D.nt) D.nt c ∧ (r.2 = .none ∨ r.2 = oobErr D.level) ∧
          Evals D.col n j ⟨xo, yo, zo, dl, .dims⟩ (m1.getCol (n * D.nt) D.nt) (c, r.2) := by
      intro m1 hb1 h1
      cases hd : maxDimArr D.A.G D.A.num with
      | ub e => rw [hd] at h1; simp at h1
      | fuel => rw [hd] at h1; simp at h1
      | ok d =>
        rw [hd] at h1
        simp only [Outcome.bind] at h1
        obtain ⟨c, j, h2, h3, h4⟩ := loop_evals D n xo yo zo dl d fuel (n * D.nt) D.A.num 0 .none
          m1 r.1 r.2 (by omega) hb1 h1 (Or.inl rfl)
        exact ⟨c, j + 1, h2, h3, .more (by simp [effCol, step, hd, Eff.onCol]) h4⟩
    refine ⟨D.entry xo yo zo dl, ?_⟩
    have hbeg : D.task.begin n = .ok (D.entry xo yo zo dl) := by
      simp [task, effTask, hi]
    by_cases hc : D.K.clears D.att
    · rw [if_pos hc] at h
      have hcl := clearCol_setCol m (n * D.nt) D.nt (m.getCol (n * D.nt) D.nt) hb D.nt
        (Nat.le_refl _)
      rw [Buf.setCol_getCol] at hcl
      rw [hcl] at h
      simp only [Outcome.bind] at h
      obtain ⟨c, j, h2, h3, h4⟩ := key _ (by simpa using hb) h
      rw [setCol_setCol] at h2
      refine ⟨c, hbeg, ?_, ?_, h3⟩
      · rw [← h2]
      · obtain ⟨j0, hj0⟩ := clear_steps D n xo yo zo dl D.nt 0 (m.getCol (n * D.nt) D.nt)
          (by omega)
        have hz : (fun q => if 0 ≤ q ∧ q < D.nt then lit 0 else m.getCol (n * D.nt) D.nt q) =
            (fun q => if q < D.nt then lit 0 else m.getCol (n * D.nt) D.nt q) := by
          funext q; simp
        rw [hz] at hj0
        rw [Job.getCol_set] at h4
        · have h1 : Steps D.col n 1 ⟨xo, yo, zo, dl, .clear D.nt⟩
              (fun q => if q < D.nt then lit 0 else m.getCol (n * D.nt) D.nt q)
              ⟨xo, yo, zo, dl, .dims⟩
              (fun q => if q < D.nt then lit 0 else m.getCol (n * D.nt) D.nt q) :=
            .more (by simp [effCol, step, Eff.onCol]) .refl
          refine ⟨j0 + 1 + j, ?_⟩
          simp only [entry, if_pos hc]
          exact (hj0.trans h1).evals h4
        · intro q hq
          rw [if_neg (by omega)]
          exact Job.getCol_pad m _ _ q hq
    · rw [if_neg hc] at h
      simp only [Outcome.bind] at h
      obtain ⟨c, j, h2, h3, h4⟩ := key _ hb h
      refine ⟨c, hbeg, ?_, ⟨j, ?_⟩, h3⟩
      · rw [← h2]
      · simp only [entry, if_neg hc]
        exact h4

/-- The buffers of the observation points, delays and the output have the sizes the argument
checks of the wrappers are meant to ensure. -/
structure Sized (D : ArrCall F) (m : Buf F) : Prop where
  ro : D.Ro.size = 3 * D.No
  delay : D.delay.size = match D.delayType with | .single => 1 | .multiple => D.No
  out : m.size = D.No * D.nt

theorem faithful {D : ArrCall F} {m : Buf F} (hs : D.Sized m) : D.drv.Faithful m where
  prog := fun n hn fuel r h => serialAt_col D m (by rw [hs.out]; exact Nat.le_refl _) n hn fuel r h
  inside := by
    intro n hn
    have : (n + 1) * D.nt ≤ D.No * D.nt := Nat.mul_le_mul_right _ hn
    rw [Nat.add_mul, Nat.one_mul] at this
    show n * D.nt + D.nt ≤ m.size
    rw [hs.out]
    omega
  disj := fun i j _ _ hij => SirCall.cols_disj D.nt i j hij

end ArrCall

end Dream
