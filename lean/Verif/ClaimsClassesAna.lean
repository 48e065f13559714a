import Verif.ClaimsClassesConv
import Verif.ClaimsClasses
import Verif.ClaimsWholeAna
import Verif.ClaimsAttFront

/-
C94 for circ_sir, scirc_sir, rect_sir and dream_att: numeric classes of their arguments in MATLAB and Octave.
-/

namespace Dream
open Arith

section Ana
variable {F : Type} [Arith F]

/-- Change the call a wrapper starts. -/
def Outcome.onRun (g : AnaCall F → AnaCall F) : Outcome (Front (AnaRun F)) → Outcome (Front (AnaRun F))
  | .ok (.rejected b) => .ok (.rejected b)
  | .ok (.call (.cpu C)) => .ok (.call (.cpu (g C)))
  | .ok (.call (.gpu C)) => .ok (.call (.gpu (g C)))
  | .ub e => .ub e
  | .fuel => .fuel

omit [Arith F] in
theorem Outcome.onRun_bind {α : Type} {g : AnaCall F → AnaCall F} {o : Outcome α}
    {k k' : α → Outcome (Front (AnaRun F))} (h : ∀ a, k' a = (k a).onRun g) : o.bind k' = (o.bind k).onRun g := by
  cases o with
  | ok a => exact h a
  | ub e => rfl
  | fuel => rfl

omit [Arith F] in
theorem Outcome.onRun_next {σ : Type} {g : AnaCall F → AnaCall F} {fe : FrontEnd} {r : PRes σ}
    {k k' : σ → Outcome (Front (AnaRun F))} (h : ∀ a, k' a = (k a).onRun g) :
    r.next fe k' = (r.next fe k).onRun g := by
  cases r with
  | raised => rfl
  | ret ok said st =>
    simp only [PRes.next]
    split
    · exact h st
    · rfl

omit [Arith F] in
theorem Outcome.onRun_alloc {g : AnaCall F → AnaCall F} {nt : Int} {k k' : ℕ → Outcome (Front (AnaRun F))}
    (h : ∀ a, k' a = (k a).onRun g) : allocOut nt k' = (allocOut nt k).onRun g := by
  unfold allocOut
  split
  · rfl
  · exact h _

theorem parsePairT_fine {fe : FrontEnd} {a : TArg F} (h : DoubleIfKept fe a) : parsePairT fe a = parsePair fe a.arg := by
  unfold parsePairT parsePair
  rw [TArg.kept_fine h]

/-- The geometry is of a class that is read correctly: the wrapper of rect_sir does not keep its matrix. -/
def GeomFine (fe : FrontEnd) (kind : AnaName) (a : TArg F) : Prop :=
  if kind = .rect then DoubleIfRead fe a else DoubleIfKept fe a

theorem parseGeomT_fine {fe : FrontEnd} {kind : AnaName} {a : TArg F} (hx : a.arg.IsVecArg fe)
    (h : GeomFine fe kind a) : parseGeomT fe kind a = parseGeometry fe kind.numPars a.arg := by
  have one : DoubleIfKept fe a → (a.arg.isVec fe 1).bind (fun good =>
      if good then ((a.kept fe).read 0).bind fun x => .ok (.ret true false (x, lit 0, lit 0))
      else .ok (failMsg fe (lit 0, lit 0, lit 0))) = parseGeometry fe 1 a.arg := by
    intro h
    unfold parseGeometry
    rw [TArg.kept_fine h, Arg.isVec_eq hx]
    by_cases hl : a.arg.HasLen fe 1
    · have r0 : a.arg.buf.read 0 = .ok (a.arg.data 0) := Arg.read_eq hl.size (i := 0) (by omega)
      simp [hl, r0]
    · simp [hl]
  cases kind with
  | rect => exact parseGeometryT_eq hx 2 (.inr h)
  | circ => exact one h
  | scirc => exact one h

/-- If the parameters are read correctly, the wrapper starts the call the user meant, on the points and delays
that are in memory. -/
theorem frontAnaT_eq (opencl : Bool) (fe : FrontEnd) (kind : AnaName) (x : TAnaArgs F)
    (hx : x.geom.arg.IsVecArg fe) (hg : GeomFine fe kind x.geom) (hs : DoubleIfKept fe x.sPar)
    (hm : DoubleIfKept fe x.mPar) :
    frontAnaT opencl fe kind x = (frontAna opencl fe kind x.plain).onRun fun C =>
      { C with Ro := x.ro.kept fe, delay := x.delay.kept fe } := by
  unfold frontAnaT frontAna
  rw [parseGeomT_fine hx hg, parsePairT_fine hs, parsePairT_fine hm]
  refine Outcome.onRun_next fun _ => ?_
  refine Outcome.onRun_bind fun _ => Outcome.onRun_next fun No => ?_
  refine Outcome.onRun_bind fun _ => Outcome.onRun_next fun gm => ?_
  refine Outcome.onRun_bind fun _ => Outcome.onRun_next fun sp => ?_
  refine Outcome.onRun_bind fun nt => ?_
  refine Outcome.onRun_bind fun _ => Outcome.onRun_next fun dt => ?_
  refine Outcome.onRun_bind fun _ => Outcome.onRun_next fun mp => ?_
  refine Outcome.onRun_bind fun _ => Outcome.onRun_next fun k => ?_
  refine Outcome.onRun_next fun dev => ?_
  refine Outcome.onRun_alloc fun n => ?_
  by_cases h : opencl = true ∧ dev = "gpu"
  · simp only [if_pos h]; rfl
  · simp only [if_neg h]; rfl

/-- C94: circ_sir, scirc_sir and rect_sir with doubles, or with numbers of any class in Octave (in rect_sir except
for the geometry), work with the numbers the user wrote: the outcomes are those of C89. -/
theorem C94_analytic (opencl : Bool) (fe : FrontEnd) (kind : AnaName) (x : TAnaArgs F)
    (hx : x.geom.arg.IsVecArg fe) (hr : DoubleIfKept fe x.ro) (hg : GeomFine fe kind x.geom)
    (hs : DoubleIfKept fe x.sPar) (hd : DoubleIfKept fe x.delay) (hm : DoubleIfKept fe x.mPar) (hw : ℕ)
    (env : Option String) (o : Seen F) :
    AnaSeesT opencl fe kind x hw env o ↔ AnaSees opencl fe kind x.plain hw env o := by
  have h : frontAnaT opencl fe kind x = frontAna opencl fe kind x.plain := by
    unfold frontAnaT frontAna
    rw [parseGeomT_fine hx hg, parsePairT_fine hs, parsePairT_fine hm, TArg.kept_fine hr, TArg.kept_fine hd]
    rfl
  constructor
  · intro ho
    cases ho with
    | refused b e => exact .refused b (h ▸ e)
    | undefined e => exact .undefined fun r g => e r (h.trans g)
    | called C e o hs => exact .called C (h ▸ e) o hs
  · intro ho
    cases ho with
    | refused b e => exact .refused b (h.trans e)
    | undefined e => exact .undefined fun r g => e r (h.symm.trans g)
    | called C e o hs => exact .called C (h.trans e) o hs

theorem TArg.raw_narrow {a : TArg F} (h : a.cls.Narrow) : a.raw.size ≤ a.arg.size / 2 := by
  obtain ⟨h1, h2⟩ := h.bytes
  simp only [TArg.raw, if_neg h1]
  have : a.arg.size * a.cls.bytes ≤ a.arg.size * 4 := Nat.mul_le_mul_left _ h2
  omega

theorem AnaCall.spinless (C : AnaCall F) : C.drv.Spinless := by
  have rw1 : ∀ (nt : ℕ) (f : ℕ → F → F), (Prog.forN (fun it (_ : Unit) =>
      .rd (it : Int) fun z => .wr (it : Int) (f it z) (.ret ())) nt 0 () : Prog F Unit).NoSpin := fun nt f => by
    refine Prog.NoSpin.forN (fun _ _ => ?_) _ _ _
    intro _; trivial
  have z : ∀ nt, (zeroFill nt : Prog F Unit).NoSpin := fun nt => by
    refine Prog.NoSpin.forN (fun _ _ => ?_) _ _ _
    trivial
  refine ⟨C.prog, rfl, fun n _ => ?_⟩
  unfold AnaCall.prog
  refine Prog.NoSpin.bind (.lift ?_) fun ⟨xo, yo, zo, d⟩ => Prog.NoSpin.bind ?_ fun _ => True.intro
  · unfold AnaCall.inputs
    exact Outcome.bind_noFuel (Buf.read_noFuel _ _) fun _ => Outcome.bind_noFuel (Buf.read_noFuel _ _) fun _ =>
      Outcome.bind_noFuel (Buf.read_noFuel _ _) fun _ => Outcome.bind_noFuel (Buf.read_noFuel _ _) fun _ => nofun
  · cases C.kind with
    | circ r =>
      refine (z _).bind fun _ => Prog.NoSpin.forN (fun it _ => ?_) _ _ _
      split <;> trivial
    | scirc r k => exact (z _).bind fun _ => rw1 _ _
    | rect a b =>
      exact (z _).bind fun _ => (rw1 _ _).bind fun _ => (rw1 _ _).bind fun _ => (rw1 _ _).bind fun _ => rw1 _ _

/-- The points or the delays end too early: the last column cannot be computed. -/
theorem AnaCall.never (C : AnaCall F) (hN : 1 ≤ C.No) (Y : Buf F)
    (h : C.Ro.size ≤ C.No - 1 + 2 * C.No ∨ C.delay.size ≤ match C.delayType with
      | .single => 0
      | .multiple => C.No - 1)
    (nth : ℕ) (hn : 1 ≤ nth) (as : List Act) (s' : Sys F (Prog F SIRError)) (hab : Act.abort ∉ as) :
    ¬ C.drv.Run nth Y as s' := by
  refine Drv.ofProg_stuck_at Y (C.No - 1) (by omega) (fun _ => False) (fun _ g => g.elim) ?_
    (fun n _ => ?_) nth hn as hab s'
  · unfold AnaCall.prog
    refine Prog.Hits.bind (.lift fun a => ?_)
    unfold AnaCall.inputs
    refine Outcome.bind_ne fun xo => Outcome.bind_ne fun yo => ?_
    rcases h with h | h
    · exact Outcome.bind_fails (fun v => Buf.read_fails (by omega) v) _
    · refine Outcome.bind_ne fun zo => Outcome.bind_fails (fun v => Buf.read_fails ?_ v) _
      cases hd : C.delayType with
      | single => rw [hd] at h; simp only at h ⊢; omega
      | multiple => rw [hd] at h; simp only at h ⊢; omega
  · unfold AnaCall.prog
    exact Prog.Rets.bind (Prog.Rets.trivial _) fun _ _ => Prog.Rets.constNone _

/-- C94, a violation: in MATLAB points or delays given as single, int8, int16, int32 or logical are not refused; a
documented call with at least one point then has undefined behaviour, unless the variable throws first. -/
theorem C94_ana_points_violated (opencl : Bool) (kind : AnaName) (x : TAnaArgs F) (hx : x.plain.Typed)
    (No nt k : ℕ) (d : AnaDoc .matlab kind x.plain No nt k) (hg : x.geom.cls = .double)
    (hs : x.sPar.cls = .double) (hm : x.mPar.cls = .double) (hN : 1 ≤ No)
    (hc : x.ro.cls.Narrow ∨ x.delay.cls.Narrow) (hw : ℕ) (env : Option String) (o : Seen F) :
    AnaSeesT opencl .matlab kind x hw env o ↔
      o = (open Classical in if AnaThrows .matlab kind env then .thrown else .undefined) := by
  have hng : ¬ WantsGpu opencl .matlab kind x.plain := fun h => by cases h.2.1
  have hgf : GeomFine .matlab kind x.geom := by
    unfold GeomFine
    split
    · exact fun _ => hg
    · exact fun _ => hg
  have hf := (C67_started_iff opencl .matlab (.inl rfl) kind x.plain hx (.cpu (x.plain.meant kind No nt k))).2
    ⟨No, nt, k, d, .inr ⟨hng, rfl⟩⟩
  have hfT := frontAnaT_eq opencl .matlab kind x (hx.geom.vecArg (.inl rfl)) hgf (fun _ => hs) (fun _ => hm)
  rw [hf] at hfT
  have hfT : frontAnaT opencl .matlab kind x = .ok (.call (.cpu
    { x.plain.meant kind No nt k with Ro := x.ro.raw, delay := x.delay.raw })) := hfT
  have key := fun o => Drv.sees_stuck (AnaCall.spinless
      { x.plain.meant kind No nt k with Ro := x.ro.raw, delay := x.delay.raw })
    (kind.cnt .matlab) hw (kind.envSeen .matlab env) (m := ⟨No * nt, fun _ => lit 0⟩)
    (fun nth hct as s' hab => AnaCall.never
      { x.plain.meant kind No nt k with Ro := x.ro.raw, delay := x.delay.raw } hN _ (by
        rcases hc with h | h
        · left
          have := TArg.raw_narrow h
          have e : x.ro.arg.size = No * 3 := Arg.size_eq d.ro
          show x.ro.raw.size ≤ No - 1 + 2 * No
          omega
        · right
          have := TArg.raw_narrow h
          have e := d.delay
          change x.delay.arg.size = 0 ∨ x.delay.arg.size = 1 ∨ x.delay.arg.size = No at e
          show x.delay.raw.size ≤ match (if x.delay.arg.size = 1 then DelayType.single else .multiple) with
            | .single => 0
            | .multiple => No - 1
          by_cases e1 : x.delay.arg.size = 1
          · rw [if_pos e1]; show x.delay.raw.size ≤ 0; omega
          · rw [if_neg e1]; show x.delay.raw.size ≤ No - 1; omega)
      nth (C72_count _ _ _ _ _ hct).1 as s' hab) o
  have e : (open Classical in if AnaThrows .matlab kind env then Seen.thrown else .undefined : Seen F) =
      (open Classical in if BadEnv (kind.envSeen .matlab env) then .thrown else .undefined) := by
    by_cases h : AnaThrows .matlab kind env
    · rw [if_pos h, if_pos ((anaThrows_iff .matlab kind env).2 h)]
    · rw [if_neg h, if_neg fun g => h ((anaThrows_iff .matlab kind env).1 g)]
  rw [e, ← key]
  constructor
  · intro ho
    cases ho with
    | refused b h' => rw [hfT] at h'; simp at h'
    | undefined h' => exact absurd hfT (h' _)
    | called C h' o hs' =>
      rw [hfT] at h'
      simp only [Outcome.ok.injEq, Front.call.injEq, AnaRun.cpu.injEq] at h'
      subst h'
      exact hs'
  · intro ho
    exact .called _ hfT _ ho

theorem parsePairT_narrow {a : TArg F} (h2 : a.arg.VecOf 2) (hc : a.cls.Narrow) (r : PRes (F × F)) :
    parsePairT .matlab a ≠ .ok r := by
  have hl := (Arg.vecOf_iff (fe := .matlab) (.inl rfl)).2 h2
  have hv : a.arg.IsVecArg .matlab := hl.vec
  unfold parsePairT
  rw [Arg.isVec_eq hv]
  simp only [hl, decide_true, Outcome.ok_bind, if_true]
  have := TArg.raw_narrow hc
  have e := hl.size
  refine Outcome.bind_ne fun v => Outcome.bind_fails (fun v => Buf.read_fails (b := a.raw) (by omega) v) _

/-- A class of the geometry that the wrapper cannot read. -/
def GeomBad (fe : FrontEnd) (kind : AnaName) (a : TArg F) : Prop :=
  (fe = .matlab ∧ a.cls.Narrow) ∨ (fe = .octave ∧ kind = .rect ∧ a.cls ≠ .double)

theorem parseGeomT_bad {fe : FrontEnd} {kind : AnaName} {a : TArg F} (hl : a.arg.HasLen fe kind.numPars)
    (h : GeomBad fe kind a) (r : PRes (F × F × F)) : parseGeomT fe kind a ≠ .ok r := by
  have e := hl.size
  by_cases hk : kind = .rect
  · subst hk
    have hs : (a.param fe).size < 2 := by
      rcases h with ⟨rfl, h⟩ | ⟨rfl, -, h⟩
      · have := TArg.raw_narrow h
        have e : a.arg.size = 2 := e
        show a.raw.size < 2
        omega
      · rw [TArg.octave_other h]; decide
    have := parseGeometryT_short (k := 2) hl (.inl rfl) hs
    show parseGeometryT fe 2 a ≠ _
    rw [this]
    intro g; cases g
  · have h' : fe = .matlab ∧ a.cls.Narrow := by
      rcases h with h | ⟨-, h, -⟩
      · exact h
      · exact absurd h hk
    obtain ⟨rfl, hn⟩ := h'
    have e1 : kind.numPars = 1 := by cases kind <;> first | rfl | exact absurd rfl hk
    rw [e1] at hl e
    have : parseGeomT .matlab kind a = (a.arg.isVec .matlab 1).bind (fun good =>
      if good then ((a.kept .matlab).read 0).bind fun x => .ok (.ret true false (x, lit 0, lit 0))
      else .ok (failMsg .matlab (lit 0, lit 0, lit 0))) := by
      cases kind <;> first | rfl | exact absurd rfl hk
    rw [this, Arg.isVec_eq hl.vec]
    simp only [hl, decide_true, Outcome.ok_bind, if_true]
    have := TArg.raw_narrow hn
    exact Outcome.bind_fails (fun v => Buf.read_fails (b := a.raw) (by omega) v) _

/-- C94, a violation: documented arguments with one of the vectors of parameters of a class that the wrapper cannot
read (single, int8, int16, int32 or logical in MATLAB; the geometry of rect_sir of any class other than double in
Octave) are not refused; the behaviour is undefined. -/
theorem C94_ana_params_violated (opencl : Bool) (fe : FrontEnd) (hfe : fe.mo) (kind : AnaName) (x : TAnaArgs F)
    (hx : x.plain.Typed) (No nt k : ℕ) (d : AnaDoc fe kind x.plain No nt k)
    (hg : GeomFine fe kind x.geom ∨ GeomBad fe kind x.geom)
    (hs : DoubleIfKept fe x.sPar ∨ x.sPar.cls.Narrow) (hm : DoubleIfKept fe x.mPar ∨ x.mPar.cls.Narrow)
    (hc : GeomBad fe kind x.geom ∨ fe = .matlab ∧ (x.sPar.cls.Narrow ∨ x.mPar.cls.Narrow))
    (hw : ℕ) (env : Option String) (o : Seen F) :
    AnaSeesT opencl fe kind x hw env o ↔ o = .undefined := by
  have hl : x.geom.arg.HasLen fe kind.numPars := by
    rw [Arg.vecOf_iff hfe]
    have := d.geom
    change x.geom.arg.VecOf _ at this
    cases kind <;> exact this
  have hcnt : kind.countOk x.sixth = true := by
    have := d.sixth
    cases kind with
    | circ => rw [show x.sixth = none from this.1]; rfl
    | scirc => obtain ⟨s, e, _⟩ := this; rw [show x.sixth = some s from e]; rfl
    | rect => rfl
  have hbad : ∀ r, frontAnaT opencl fe kind x ≠ .ok r := by
    intro r
    unfold frontAnaT
    rw [if_pos hcnt, ret_next, show checkObs fe x.ro.arg = _ from checkObs_eq fe d.ro, if_pos rfl, Outcome.ok_bind,
      ret_next]
    by_cases gb : GeomBad fe kind x.geom
    · exact Outcome.bind_fails (parseGeomT_bad hl gb) _
    obtain ⟨rfl, hc'⟩ := hc.resolve_left gb
    have np : 1 ≤ kind.numPars := by cases kind <;> decide
    rw [parseGeomT_fine hl.vec (hg.resolve_right gb), parseGeometry_eq .matlab hl.vec _ np, if_pos hl,
      Outcome.ok_bind, ret_next]
    by_cases sb : x.sPar.cls.Narrow
    · exact Outcome.bind_fails (parsePairT_narrow d.sPar sb) _
    have mb := hc'.resolve_left sb
    have hdl : x.delay.arg.size = 0 ∨ x.delay.arg.size = 1 ∨ x.delay.arg.size = No := d.delay
    have len : trunc (x.sPar.arg.data 1) = some (nt : ℤ) := d.len
    rw [parsePairT_fine (hs.resolve_right sb), show parsePair .matlab x.sPar.arg = _ from parsePair_eq (.inl rfl) hx.sPar,
      if_pos (show x.sPar.arg.VecOf 2 from d.sPar), Outcome.ok_bind, ret_next]
    dsimp only
    rw [len, show castIdx FrontEnd.matlab.idx (some (nt : ℤ)) = .ok (nt : ℤ) by simp only [castIdx, d.fits, if_true],
      Outcome.ok_bind, show checkDelay .matlab x.delay.arg No = _ from checkDelay_eq .matlab
        (show x.delay.arg.IsVecArg .matlab from hx.delay) No, if_pos hdl, Outcome.ok_bind, ret_next]
    exact Outcome.bind_fails (parsePairT_narrow d.mPar mb) _
  constructor
  · intro ho
    cases ho with
    | refused b e => exact absurd e (hbad _)
    | undefined e => rfl
    | called C e => exact absurd e (hbad _)
  · rintro rfl
    exact .undefined hbad

/-- C94: dream_att with doubles, or with points and parameters of any class in Octave, works with the numbers the
user wrote: the outcomes are those of C69. -/
theorem C94_dream_att (L : FFTLib F) (fe : FrontEnd) (xc0 : ℕ → F × F) (x0 : ℕ → F) (x : TAttArgs F)
    (hr : DoubleIfKept fe x.ro) (hs : DoubleIfKept fe x.sPar) (hd : DoubleIfKept fe x.delay)
    (hm : DoubleIfKept fe x.mPar) :
    frontAttT L fe xc0 x0 x = frontAtt L fe xc0 x0 x.plain := by
  unfold frontAttT frontAtt
  have e : attDelay fe x.delay = x.delay.arg.buf := by
    unfold attDelay
    rw [TArg.kept_fine hd, if_neg (fun g => g.1 g.2)]
  rw [parsePairT_fine hs, parsePairT_fine hm, TArg.kept_fine hr, e]
  rfl

/-- C94, a violation: in MATLAB a documented call of dream_att with points, delays, sampling or material parameters given as
single, int8, int16, int32 or logical has no result and no error message: its behaviour is undefined (for the
points and delays, if there is at least one point). -/
theorem C94_dream_att_narrow_violated (L : FFTLib F) (xc0 : ℕ → F × F) (x0 : ℕ → F) (x : TAttArgs F)
    (hx : x.plain.Typed) (No nt : ℕ) (d : AttDoc .matlab x.plain No nt)
    (hr : x.ro.cls = .double ∨ x.ro.cls.Narrow) (hs : x.sPar.cls = .double ∨ x.sPar.cls.Narrow)
    (hm : x.mPar.cls = .double ∨ x.mPar.cls.Narrow)
    (hc : ((x.ro.cls.Narrow ∨ x.delay.cls.Narrow) ∧ 1 ≤ No) ∨ x.sPar.cls.Narrow ∨ x.mPar.cls.Narrow) (r : Front (Buf F)) :
    frontAttT L .matlab xc0 x0 x ≠ .ok r := by
  have hfe : FrontEnd.matlab.mo := .inl rfl
  unfold frontAttT
  rw [show checkObs .matlab x.ro.arg = _ from checkObs_eq .matlab d.ro, if_pos rfl, Outcome.ok_bind, ret_next]
  by_cases sb : x.sPar.cls.Narrow
  · exact Outcome.bind_fails (parsePairT_narrow d.sPar sb) _
  have hdl : x.delay.arg.size = 0 ∨ x.delay.arg.size = 1 ∨ x.delay.arg.size = No := d.delay
  have len : trunc (x.sPar.arg.data 1) = some (nt : ℤ) := d.len
  rw [parsePairT_fine (fun _ => hs.resolve_right sb), show parsePair .matlab x.sPar.arg = _ from parsePair_eq hfe hx.sPar,
    if_pos (show x.sPar.arg.VecOf 2 from d.sPar), Outcome.ok_bind, ret_next]
  dsimp only
  have hk := keepCount_eq (fe := .matlab) (No := No) (fun g => by cases g)
  rw [castLen_good hfe len d.fits, Outcome.ok_bind, hk, Int.toNat_natCast,
    show checkDelay .matlab x.delay.arg No = _ from checkDelay_eq .matlab
      (show x.delay.arg.IsVecArg .matlab from hx.delay.vecArg hfe) No, if_pos hdl,
    Outcome.ok_bind, ret_next]
  by_cases mb : x.mPar.cls.Narrow
  · exact Outcome.bind_fails (parsePairT_narrow d.mPar mb) _
  have rb := hc.resolve_right (fun g => g.elim sb mb)
  rw [parsePairT_fine (fun _ => hm.resolve_right mb), show parsePair .matlab x.mPar.arg = _ from parsePair_eq hfe hx.mPar,
    if_pos (show x.mPar.arg.VecOf 2 from d.mPar), Outcome.ok_bind, ret_next]
  dsimp only
  unfold allocOut
  rw [if_neg (by omega)]
  beta_reduce
  rw [if_neg (by omega), Int.toNat_natCast, Int.toNat_natCast]
  refine Outcome.bind_fails (fun h => ?_) _
  unfold dreamAtt
  refine forO_fails (i := No - 1) (fun s s' => Outcome.bind_fails (fun q => ?_) _) No 0 _ (by omega) (by omega) h
  unfold AttCall.arrive
  have h2 := rb.2
  rcases rb.1 with rn | dn
  · refine Outcome.bind_ne fun _ => Outcome.bind_ne fun _ => Outcome.bind_fails (fun v => Buf.read_fails ?_ v) _
    have h1 := TArg.raw_narrow rn
    have e : x.ro.arg.size = No * 3 := Arg.size_eq d.ro
    show (x.ro.raw.size : ℤ) ≤ ((No - 1 + 2 * No : ℕ) : ℤ)
    omega
  · refine Outcome.bind_ne fun _ => Outcome.bind_ne fun _ => Outcome.bind_ne fun _ =>
      Outcome.bind_fails (fun v => Buf.read_fails ?_ v) _
    have h1 := TArg.raw_narrow dn
    show ((attDelay .matlab x.delay).size : ℤ) ≤ if (attDelay .matlab x.delay).size = 1 then 0 else ((No - 1 : ℕ) : ℤ)
    have e : attDelay .matlab x.delay = if x.delay.arg.size ≠ 1 ∧ x.delay.raw.size = 1 then ⟨0, x.delay.bits⟩
        else x.delay.raw := rfl
    by_cases g : x.delay.arg.size ≠ 1 ∧ x.delay.raw.size = 1
    · rw [e, if_pos g]
      dsimp only
      rw [if_neg (by omega)]
      omega
    · rw [e, if_neg g, if_neg (by omega)]
      omega

end Ana

/-! ### Concrete cases -/

section Example
attribute [local instance] toyArith

/-- A vector or matrix of the given class. -/
def exTyped (a : Arg Int) (c : NumClass) : TArg Int := ⟨a, c, fun i => 1000 + i⟩

/-- The arguments `exAnaArgs` with a class for each. -/
def exTAna (ro geom sPar : NumClass) : TAnaArgs Int where
  ro := exTyped (exAnaArgs none ⟨[1, 1], fun _ => 10⟩).ro ro
  geom := exTyped ⟨[1, 1], fun _ => 10⟩ geom
  sPar := exTyped (exAnaArgs none ⟨[1, 1], fun _ => 10⟩).sPar sPar
  delay := exTyped (exAnaArgs none ⟨[1, 1], fun _ => 10⟩).delay .double
  mPar := exTyped (exAnaArgs none ⟨[1, 1], fun _ => 10⟩).mPar .double
  sixth := none

theorem exTAna_typed (a b c : NumClass) : (exTAna a b c).plain.Typed :=
  exAnaArgs_typed none ⟨[1, 1], fun _ => 10⟩ ⟨_, _, rfl⟩ (fun s h => by cases h)

theorem exTAna_doc (fe : FrontEnd) (hfe : fe.mo) (a b c : NumClass) : AnaDoc fe .circ (exTAna a b c).plain 2 50 0 := by
  rcases hfe with rfl | rfl <;>
  exact ⟨rfl, .inl rfl, .inr rfl, rfl, by decide, .inr (.inr rfl), .inr rfl, ⟨rfl, rfl⟩⟩

-- single precision points in MATLAB: undefined
example (o : Seen Int) : AnaSeesT false .matlab .circ (exTAna .single .double .double) 4 none o ↔ o = .undefined := by
  have h := C94_ana_points_violated false .circ (exTAna .single .double .double) (exTAna_typed _ _ _) 2 50 0
    (exTAna_doc .matlab (.inl rfl) _ _ _) rfl rfl rfl (by decide) (.inl (by decide)) 4 none o
  rwa [if_neg (show ¬ AnaThrows .matlab .circ none by
    rw [← anaThrows_iff]; rintro ⟨s, h, _⟩; cases h)] at h

-- a geometry or sampling parameters of type int32 in MATLAB: undefined
example (o : Seen Int) : AnaSeesT false .matlab .circ (exTAna .double .int32 .double) 4 none o ↔ o = .undefined :=
  C94_ana_params_violated false .matlab (.inl rfl) .circ (exTAna .double .int32 .double) (exTAna_typed _ _ _) 2 50 0
    (exTAna_doc .matlab (.inl rfl) _ _ _) (.inr (.inl ⟨rfl, by decide⟩)) (.inl fun _ => rfl) (.inl fun _ => rfl)
    (.inl (.inl ⟨rfl, by decide⟩)) 4 none o
example (o : Seen Int) : AnaSeesT false .matlab .circ (exTAna .double .double .int16) 4 none o ↔ o = .undefined :=
  C94_ana_params_violated false .matlab (.inl rfl) .circ (exTAna .double .double .int16) (exTAna_typed _ _ _) 2 50 0
    (exTAna_doc .matlab (.inl rfl) _ _ _) (.inl fun _ => rfl) (.inr (by decide)) (.inl fun _ => rfl)
    (.inr ⟨rfl, .inl (by decide)⟩) 4 none o

-- the same classes in Octave: the documented call
example (o : Seen Int) : AnaSeesT false .octave .circ (exTAna .single .int32 .int16) 4 none o ↔
    AnaSees false .octave .circ (exTAna .single .int32 .int16).plain 4 none o :=
  C94_analytic false .octave .circ (exTAna .single .int32 .int16) ((exTAna_typed .single .int32 .int16).geom.vecArg (.inr rfl))
    nofun nofun nofun nofun nofun 4 none o

/-- dream_att with classes. -/
def exTAtt (ro sPar delay : NumClass) : TAttArgs Int where
  ro := exTyped ⟨[1, 3], fun i => if i = 2 then 3 else 0⟩ ro
  sPar := exTyped ⟨[1, 2], fun i => if i = 0 then 1 else 4⟩ sPar
  delay := exTyped ⟨[1, 1], fun _ => 0⟩ delay
  mPar := exTyped ⟨[1, 2], fun i => if i = 0 then 1000 else 0⟩ .double

theorem exTAtt_typed (a b c : NumClass) : (exTAtt a b c).plain.Typed :=
  ⟨⟨_, _, rfl⟩, ⟨_, _, rfl⟩, ⟨_, _, rfl⟩, ⟨_, _, rfl⟩⟩

theorem exTAtt_doc (a b c : NumClass) : AttDoc .matlab (exTAtt a b c).plain 1 4 :=
  ⟨rfl, nofun, .inr rfl, rfl, by show (0 : ℤ) ≤ 4 ∧ (4 : ℤ) < 2 ^ 64; norm_num, .inr (.inl rfl), .inr rfl⟩

example (L : FFTLib Int) (xc0 : ℕ → Int × Int) (x0 : ℕ → Int) (r : Front (Buf Int)) :
    frontAttT L .matlab xc0 x0 (exTAtt .single .double .double) ≠ .ok r :=
  C94_dream_att_narrow_violated L xc0 x0 _ (exTAtt_typed _ _ _) 1 4 (exTAtt_doc _ _ _) (.inr (by decide)) (.inl rfl)
    (.inl rfl) (.inl ⟨.inl (by decide), by decide⟩) r
example (L : FFTLib Int) (xc0 : ℕ → Int × Int) (x0 : ℕ → Int) (r : Front (Buf Int)) :
    frontAttT L .matlab xc0 x0 (exTAtt .double .double .logical) ≠ .ok r :=
  C94_dream_att_narrow_violated L xc0 x0 _ (exTAtt_typed _ _ _) 1 4 (exTAtt_doc _ _ _) (.inl rfl) (.inl rfl)
    (.inl rfl) (.inl ⟨.inr (by decide), by decide⟩) r
example (L : FFTLib Int) (xc0 : ℕ → Int × Int) (x0 : ℕ → Int) :
    frontAttT L .octave xc0 x0 (exTAtt .single .int8 .int64) =
      frontAtt L .octave xc0 x0 (exTAtt .single .int8 .int64).plain :=
  C94_dream_att L .octave xc0 x0 _ nofun nofun nofun nofun

end Example


end Dream
