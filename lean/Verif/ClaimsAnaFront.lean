import Verif.AnaFront
import Verif.ClaimsArgs
import Verif.ClaimsDasFront
import Verif.ClaimsCirc
import Verif.ClaimsRect
import Verif.ClaimsGpuRect
import Verif.Toy

/-
C67: what the MATLAB and Octave wrappers of circ_sir, scirc_sir and rect_sir accept, and what is then
computed.
-/

namespace Dream
open Arith

section General
variable {F : Type} [Arith F]

/-! ### Specification -/

/-- All numeric arguments are matrices (MATLAB and Octave). -/
structure AnaArgs.Typed (x : AnaArgs F) : Prop where
  ro : x.ro.IsMatrix
  geom : x.geom.IsMatrix
  sPar : x.sPar.IsMatrix
  delay : x.delay.IsMatrix
  mPar : x.mPar.IsMatrix
  sixth : ∀ s, x.sixth = some s → s.num.IsMatrix

/-- A row or column with `k` entries. -/
def Arg.VecOf (k : Nat) (a : Arg F) : Prop := a.shape = [k, 1] ∨ a.shape = [1, k]

/-- The number `x` has an integral part that the interface's index type can hold. -/
def Casts (fe : FrontEnd) (x : F) : Prop := ∃ t, trunc x = some t ∧ fe.idx.fits t = true

/-- The sixth argument: none for circ_sir, the number `k ≥ 1` of intervals for scirc_sir; for rect_sir
it may be absent and has to be a text in Octave. -/
def SixthDoc (fe : FrontEnd) (kind : AnaName) (sixth : Option (SixthArg F)) (k : Nat) : Prop :=
  match kind with
  | .circ => sixth = none ∧ k = 0
  | .scirc => ∃ s, sixth = some s ∧ s.num.shape = [1, 1] ∧ trunc (s.num.data 0) = some (k : Int) ∧
      fe.idx.fits k = true ∧ 1 ≤ k
  | .rect => k = 0 ∧ (fe = .octave → ∀ s, sixth = some s → ∃ t, s.str = .text t)

/-- The arguments are as documented, in the order points, geometry, sampling, delay, material: `No`
points, response length `nt`, `k` intervals.  `delay` is as checked: an empty one should not be
allowed. -/
structure AnaDoc (fe : FrontEnd) (kind : AnaName) (x : AnaArgs F) (No nt k : Nat) : Prop where
  ro : x.ro.shape = [No, 3]
  geom : x.geom.VecOf (if kind = .rect then 2 else 1)
  sPar : x.sPar.VecOf 2
  len : trunc (x.sPar.data 1) = some (nt : Int)
  fits : fe.idx.fits nt = true
  delay : x.delay.size = 0 ∨ x.delay.size = 1 ∨ x.delay.size = No
  mPar : x.mPar.VecOf 2
  sixth : SixthDoc fe kind x.sixth k

/-- The user asks for the GPU and gets it: Octave's rect_sir in a build with OpenCL. -/
def WantsGpu (opencl : Bool) (fe : FrontEnd) (kind : AnaName) (x : AnaArgs F) : Prop :=
  opencl = true ∧ fe = .octave ∧ kind = .rect ∧ ∃ s, x.sixth = some s ∧ s.str = .text "gpu"

/-- The computation meant by the arguments. -/
def AnaArgs.meant (kind : AnaName) (x : AnaArgs F) (No nt k : Nat) : AnaCall F :=
  { kind := match kind with
      | .circ => .circ (x.geom.data 0)
      | .scirc => .scirc (x.geom.data 0) k
      | .rect => .rect (x.geom.data 0) (x.geom.data 1)
    Ro := ⟨No * 3, x.ro.data⟩
    No := No
    dt := x.sPar.data 0
    nt := nt
    delayType := if x.delay.size = 1 then .single else .multiple
    delay := ⟨x.delay.size, x.delay.data⟩
    v := x.mPar.data 0
    cp := x.mPar.data 1 }

/-! ### The wrapper -/

theorem Arg.IsMatrix.vecArg {fe : FrontEnd} (hfe : fe.mo) {a : Arg F} (h : a.IsMatrix) : a.IsVecArg fe := by
  rcases hfe with rfl | rfl <;> exact h

theorem Arg.vecOf_iff {fe : FrontEnd} (hfe : fe.mo) {a : Arg F} {k : Nat} : a.HasLen fe k ↔ a.VecOf k := by
  rcases hfe with rfl | rfl <;> exact Iff.rfl

open Classical in
theorem parsePair_eq {fe : FrontEnd} (hfe : fe.mo) {a : Arg F} (h : a.IsMatrix) :
    parsePair fe a = .ok (if a.VecOf 2 then .ret true false (a.data 0, a.data 1) else failMsg fe (lit 0, lit 0)) := by
  unfold parsePair
  rw [Arg.isVec_eq (h.vecArg hfe)]
  by_cases hl : a.HasLen fe 2
  · have hs := hl.size
    have r0 : a.buf.read 0 = .ok (a.data 0) := Arg.read_eq hs (i := 0) (by omega)
    have r1 : a.buf.read 1 = .ok (a.data 1) := Arg.read_eq hs (i := 1) (by omega)
    simp [hl, r0, r1, (Arg.vecOf_iff hfe).1 hl]
  · simp [hl, mt (Arg.vecOf_iff hfe).2 hl]

open Classical in
theorem parseIntLen_eq {fe : FrontEnd} (hfe : fe.mo) {a : Arg F} (h : a.IsMatrix) :
    parseIntLen fe a = if a.shape = [1, 1] then
        (castIdx fe.idx (trunc (a.data 0))).bind fun k =>
          .ok (if k < 1 then failMsg fe 0 else .ret true false k.toNat)
      else .ok (failMsg fe 0) := by
  unfold parseIntLen
  rw [Arg.isVec_eq (h.vecArg hfe)]
  have e : a.HasLen fe 1 ↔ a.shape = [1, 1] := by
    rw [Arg.vecOf_iff hfe]; unfold Arg.VecOf; tauto
  by_cases hl : a.HasLen fe 1
  · have r0 : a.buf.read 0 = .ok (a.data 0) := Arg.read_eq hl.size (i := 0) (by omega)
    simp [hl, r0, e.1 hl]
  · simp [hl, mt e.2 hl]

theorem castIdx_bad {fe : FrontEnd} {y : F} (h : ¬ Casts fe y) : castIdx fe.idx (trunc y) = .ub .cast := by
  unfold castIdx
  split
  · next t e =>
    rw [if_neg]
    exact fun g => h ⟨t, e, g⟩
  · rfl

theorem castIdx_good {fe : FrontEnd} {y : F} {t : Int} (h : trunc y = some t) (hf : fe.idx.fits t = true) :
    castIdx fe.idx (trunc y) = .ok t := by
  unfold castIdx
  rw [h]
  simp [hf]

theorem AnaDoc.unique {fe : FrontEnd} {kind : AnaName} {x : AnaArgs F} {No nt k No' nt' k' : Nat}
    (h : AnaDoc fe kind x No nt k) (h' : AnaDoc fe kind x No' nt' k') : No = No' ∧ nt = nt' ∧ k = k' := by
  have a := h.ro.symm.trans h'.ro
  have b := h.len.symm.trans h'.len
  have c := h.sixth
  have c' := h'.sixth
  refine ⟨by simpa using a, by simpa using b, ?_⟩
  cases kind with
  | circ => exact c.2.trans c'.2.symm
  | rect => exact c.1.trans c'.1.symm
  | scirc =>
    obtain ⟨s, e1, _, e2, _⟩ := c
    obtain ⟨s', e1', _, e2', _⟩ := c'
    rw [e1] at e1'
    cases e1'
    rw [e2] at e2'
    simpa using e2'

/-- The wrapper has three kinds of outcome. -/
inductive AnaOutcome (opencl : Bool) (fe : FrontEnd) (kind : AnaName) (x : AnaArgs F) :
    Outcome (Front (AnaRun F)) → Prop
  /-- documented arguments: the meant computation is started -/
  | started (No nt k : Nat) : AnaDoc fe kind x No nt k → ¬ WantsGpu opencl fe kind x →
      AnaOutcome opencl fe kind x (.ok (.call (.cpu (x.meant kind No nt k))))
  | startedGpu (No nt k : Nat) : AnaDoc fe kind x No nt k → WantsGpu opencl fe kind x →
      AnaOutcome opencl fe kind x (.ok (.call (.gpu (x.meant kind No nt k))))
  /-- undocumented arguments: an error message -/
  | refused : (¬ ∃ No nt k, AnaDoc fe kind x No nt k) → AnaOutcome opencl fe kind x (.ok (.rejected true))
  /-- a length that cannot be converted -/
  | badLength (No : Nat) : x.ro.shape = [No, 3] → x.sPar.VecOf 2 → ¬ Casts fe (x.sPar.data 1) →
      AnaOutcome opencl fe kind x (.ub .cast)
  | badIntervals (s : SixthArg F) : kind = .scirc → x.sixth = some s → s.num.shape = [1, 1] →
      ¬ Casts fe (s.num.data 0) → AnaOutcome opencl fe kind x (.ub .cast)

/-- C67: whatever the arguments (matrices of any shape and content), the wrapper starts the meant
computation for documented arguments, refuses others with a message, and is undefined at most when
the response length or the number of intervals is no number of the index type. -/
theorem C67_outcomes (opencl : Bool) (fe : FrontEnd) (hfe : fe.mo) (kind : AnaName) (x : AnaArgs F)
    (hx : x.Typed) : AnaOutcome opencl fe kind x (frontAna opencl fe kind x) := by
  classical
  obtain ⟨m, n, hro⟩ := hx.ro
  have hnp : 1 ≤ kind.numPars := by cases kind <;> decide
  have hgv : x.geom.VecOf (if kind = .rect then 2 else 1) ↔
      x.geom.HasLen fe kind.numPars := by
    rw [Arg.vecOf_iff hfe]; cases kind <;> exact Iff.rfl
  unfold frontAna
  by_cases hcnt : kind.countOk x.sixth = true
  swap
  · rw [if_neg hcnt, failMsg_next]
    refine .refused ?_
    rintro ⟨No, nt, k, hd⟩
    have := hd.sixth
    cases kind with
    | circ => rw [this.1] at hcnt; exact hcnt rfl
    | scirc => obtain ⟨s, e, _⟩ := this; rw [e] at hcnt; exact hcnt rfl
    | rect => exact hcnt rfl
  rw [if_pos hcnt, ret_next, checkObs_eq fe hro]
  by_cases hn : n = 3
  swap
  · rw [if_neg hn, Outcome.ok_bind, failMsg_next]
    refine .refused ?_
    rintro ⟨No, nt, k, hd⟩
    have := hro.symm.trans hd.ro
    simp only [List.cons.injEq] at this
    exact hn this.2.1
  subst hn
  simp only [if_true, Outcome.ok_bind, ret_next]
  rw [parseGeometry_eq fe (hx.geom.vecArg hfe) _ hnp]
  by_cases hg : x.geom.HasLen fe kind.numPars
  swap
  · rw [if_neg hg, Outcome.ok_bind, failMsg_next]
    exact .refused fun ⟨No, nt, k, hd⟩ => hg (hgv.1 hd.geom)
  rw [if_pos hg, Outcome.ok_bind, ret_next, parsePair_eq hfe hx.sPar]
  by_cases hs : x.sPar.VecOf 2
  swap
  · rw [if_neg hs, Outcome.ok_bind, failMsg_next]
    exact .refused fun ⟨No, nt, k, hd⟩ => hs hd.sPar
  rw [if_pos hs, Outcome.ok_bind, ret_next]
  dsimp only
  by_cases hc : Casts fe (x.sPar.data 1)
  swap
  · rw [castIdx_bad hc]
    exact .badLength m hro hs hc
  obtain ⟨t, ht, hfit⟩ := hc
  rw [castIdx_good ht hfit, Outcome.ok_bind, checkDelay_eq fe (hx.delay.vecArg hfe)]
  by_cases hdl : x.delay.size = 0 ∨ x.delay.size = 1 ∨ x.delay.size = m
  swap
  · rw [if_neg hdl, Outcome.ok_bind, failMsg_next]
    refine .refused ?_
    rintro ⟨No, nt, k, hd⟩
    have := hro.symm.trans hd.ro
    simp only [List.cons.injEq, and_true] at this
    have hdd := hd.delay
    rw [← this] at hdd
    exact hdl hdd
  rw [if_pos hdl, Outcome.ok_bind, ret_next, parsePair_eq hfe hx.mPar]
  by_cases hm : x.mPar.VecOf 2
  swap
  · rw [if_neg hm, Outcome.ok_bind, failMsg_next]
    exact .refused fun ⟨No, nt, k, hd⟩ => hm hd.mPar
  rw [if_pos hm, Outcome.ok_bind, ret_next]
  dsimp only
  have hbuf : x.ro.buf = ⟨m * 3, x.ro.data⟩ := by
    unfold Arg.buf; rw [Arg.size_eq hro]
  -- the end of the wrapper
  have fin : ∀ k, SixthDoc fe kind x.sixth k → ∀ dev : String,
      (opencl = true ∧ dev = "gpu" ↔ WantsGpu opencl fe kind x) →
      AnaOutcome opencl fe kind x (allocOut t fun nt => .ok (.call (if opencl = true ∧ dev = "gpu" then
        .gpu ⟨kind.toKind (geomOf kind.numPars x.geom) k, x.ro.buf, m, x.sPar.data 0, nt,
          delayTypeOf x.delay, x.delay.buf, x.mPar.data 0, x.mPar.data 1⟩
        else .cpu ⟨kind.toKind (geomOf kind.numPars x.geom) k, x.ro.buf, m, x.sPar.data 0, nt,
          delayTypeOf x.delay, x.delay.buf, x.mPar.data 0, x.mPar.data 1⟩))) := by
    intro k hk dev hdev
    unfold allocOut
    by_cases h0 : t < 0
    · rw [if_pos h0]
      refine .refused ?_
      rintro ⟨No, nt, k', hd⟩
      have := ht.symm.trans hd.len
      simp only [Option.some.injEq] at this
      omega
    · rw [if_neg h0]
      beta_reduce
      have htn : ((t.toNat : Nat) : Int) = t := by omega
      have doc : AnaDoc fe kind x m t.toNat k := by
        refine ⟨hro, hgv.2 hg, hs, ?_, ?_, hdl, hm, hk⟩
        · rw [htn]; exact ht
        · rw [htn]; exact hfit
      have e : (⟨kind.toKind (geomOf kind.numPars x.geom) k,
               x.ro.buf, m, x.sPar.data 0, t.toNat, delayTypeOf x.delay, x.delay.buf, x.mPar.data 0,
               x.mPar.data 1⟩ : AnaCall F) = x.meant kind m t.toNat k := by
        rw [hbuf]
        cases kind <;> rfl
      by_cases hw : WantsGpu opencl fe kind x
      · rw [if_pos (hdev.2 hw)]
        refine Eq.subst (motive := fun C => AnaOutcome opencl fe kind x (.ok (.call (.gpu C)))) e.symm ?_
        exact .startedGpu m t.toNat k doc hw
      · rw [if_neg (fun g => hw (hdev.1 g))]
        refine Eq.subst (motive := fun C => AnaOutcome opencl fe kind x (.ok (.call (.cpu C)))) e.symm ?_
        exact .started m t.toNat k doc hw
  have hno : kind ≠ .rect → ¬ WantsGpu opencl fe kind x := fun h g => h g.2.2.1
  cases kind with
  | circ =>
    simp only [Outcome.ok_bind, ret_next]
    have h6 : x.sixth = none := by simpa [AnaName.countOk] using hcnt
    exact fin 0 ⟨h6, rfl⟩ "" ⟨fun g => absurd g.2 (by decide), fun g => absurd g (hno (by decide))⟩
  | scirc =>
    obtain ⟨s, h6⟩ : ∃ s, x.sixth = some s := Option.isSome_iff_exists.1 (by simpa [AnaName.countOk] using hcnt)
    rw [h6] at fin ⊢
    dsimp only
    rw [parseIntLen_eq hfe (hx.sixth s h6)]
    by_cases hsh : s.num.shape = [1, 1]
    swap
    · rw [if_neg hsh, Outcome.ok_bind, failMsg_next]
      refine .refused ?_
      rintro ⟨No, nt, k, hd⟩
      obtain ⟨s', e1, e2, _⟩ := hd.sixth
      rw [h6] at e1
      cases e1
      exact hsh e2
    rw [if_pos hsh]
    by_cases hc : Casts fe (s.num.data 0)
    swap
    · rw [castIdx_bad hc]
      exact .badIntervals s rfl h6 hsh hc
    obtain ⟨k, hk, hkf⟩ := hc
    rw [castIdx_good hk hkf, Outcome.ok_bind, Outcome.ok_bind]
    by_cases h1 : k < 1
    · rw [if_pos h1, failMsg_next]
      refine .refused ?_
      rintro ⟨No, nt, k', hd⟩
      obtain ⟨s', e1, _, e2, _, e3⟩ := hd.sixth
      rw [h6] at e1
      cases e1
      have := hk.symm.trans e2
      simp only [Option.some.injEq] at this
      omega
    · rw [if_neg h1, ret_next, ret_next]
      have hkn : ((k.toNat : Nat) : Int) = k := by omega
      refine fin k.toNat ⟨s, rfl, hsh, ?_, ?_, ?_⟩ "" ⟨fun g => absurd g.2 (by decide), fun g => absurd g (hno (by decide))⟩
      · rw [hkn]; exact hk
      · rw [hkn]; exact hkf
      · omega
  | rect =>
    simp only [Outcome.ok_bind, ret_next]
    rcases hfe with rfl | rfl
    · rw [show parseDevice .matlab x.sixth = .ret true false "" from rfl, ret_next]
      exact fin 0 ⟨rfl, fun g => absurd g (by decide)⟩ "" ⟨fun g => absurd g.2 (by decide), fun g => absurd g.2.1 (by decide)⟩
    · cases h6 : x.sixth with
      | none =>
        rw [show parseDevice .octave (none : Option (SixthArg F)) = .ret true false "" from rfl, ret_next]
        refine fin 0 ⟨rfl, fun _ s g => ?_⟩ "" ⟨fun g => absurd g.2 (by decide), ?_⟩
        · rw [h6] at g; cases g
        · rintro ⟨_, _, _, s, g, _⟩; rw [h6] at g; cases g
      | some s =>
        cases hstr : s.str with
        | other =>
          rw [show parseDevice .octave (some s) = failMsg .octave "" by simp [parseDevice, hstr], failMsg_next]
          refine .refused ?_
          rintro ⟨No, nt, k, hd⟩
          obtain ⟨t', e⟩ := hd.sixth.2 rfl s h6
          rw [hstr] at e
          cases e
        | text dv =>
          rw [show parseDevice .octave (some s) = .ret true false dv by simp [parseDevice, hstr], ret_next]
          refine fin 0 ⟨rfl, fun _ s' g => ?_⟩ dv ⟨fun g => ⟨g.1, rfl, rfl, s, h6, by rw [hstr, g.2]⟩, ?_⟩
          · rw [h6] at g; cases g; exact ⟨dv, hstr⟩
          · rintro ⟨g1, _, _, s', g, g2⟩
            rw [h6] at g
            cases g
            rw [hstr] at g2
            cases g2
            exact ⟨g1, rfl⟩

/-- C67: a computation is started exactly for documented arguments, and it is the meant one. -/
theorem C67_started_iff (opencl : Bool) (fe : FrontEnd) (hfe : fe.mo) (kind : AnaName) (x : AnaArgs F)
    (hx : x.Typed) (r : AnaRun F) :
    frontAna opencl fe kind x = .ok (.call r) ↔ ∃ No nt k, AnaDoc fe kind x No nt k ∧
      ((WantsGpu opencl fe kind x ∧ r = .gpu (x.meant kind No nt k)) ∨
       (¬ WantsGpu opencl fe kind x ∧ r = .cpu (x.meant kind No nt k))) := by
  have key := C67_outcomes opencl fe hfe kind x hx
  constructor
  · intro h
    rw [h] at key
    cases key with
    | started No nt k d w => exact ⟨No, nt, k, d, .inr ⟨w, rfl⟩⟩
    | startedGpu No nt k d w => exact ⟨No, nt, k, d, .inl ⟨w, rfl⟩⟩
  · rintro ⟨No, nt, k, d, hr⟩
    generalize hf : frontAna opencl fe kind x = o at key
    cases key with
    | started No' nt' k' d' w =>
      obtain ⟨rfl, rfl, rfl⟩ := d.unique d'
      rcases hr with ⟨g, _⟩ | ⟨_, rfl⟩
      · exact absurd g w
      · rfl
    | startedGpu No' nt' k' d' w =>
      obtain ⟨rfl, rfl, rfl⟩ := d.unique d'
      rcases hr with ⟨_, rfl⟩ | ⟨g, _⟩
      · rfl
      · exact absurd w g
    | refused g => exact absurd ⟨No, nt, k, d⟩ g
    | badLength No' h1 h2 h3 => exact absurd ⟨_, d.len, d.fits⟩ h3
    | badIntervals s e1 e2 e3 e4 =>
      subst e1
      obtain ⟨s', g1, g2, g3, g4, g5⟩ := d.sixth
      rw [e2] at g1
      cases g1
      exact absurd ⟨_, g3, g4⟩ e4

/-- C67: if the length and the number of intervals are numbers of the index type, undocumented
arguments get an error message. -/
theorem C67_refused (opencl : Bool) (fe : FrontEnd) (hfe : fe.mo) (kind : AnaName) (x : AnaArgs F)
    (hx : x.Typed) (hl : Casts fe (x.sPar.data 1))
    (hk : kind = .scirc → ∀ s, x.sixth = some s → Casts fe (s.num.data 0))
    (h : ¬ ∃ No nt k, AnaDoc fe kind x No nt k) :
    frontAna opencl fe kind x = .ok (.rejected true) := by
  have key := C67_outcomes opencl fe hfe kind x hx
  generalize frontAna opencl fe kind x = o at key
  cases key with
  | started No' nt' k' d' w => exact absurd ⟨_, _, _, d'⟩ h
  | startedGpu No' nt' k' d' w => exact absurd ⟨_, _, _, d'⟩ h
  | refused g => rfl
  | badLength No' h1 h2 h3 => exact absurd hl h3
  | badIntervals s e1 e2 e3 e4 => exact absurd (hk e1 s e2) e4

/-- C67: a negative length is refused in Octave; in MATLAB its conversion is undefined once points,
geometry and sampling vector have passed their checks. -/
theorem C67_negative_length (opencl : Bool) (kind : AnaName) (x : AnaArgs F) (hx : x.Typed)
    (t : Int) (ht : trunc (x.sPar.data 1) = some t) (h0 : t < 0) :
    (-2 ^ 63 ≤ t → (kind = .scirc → ∀ s, x.sixth = some s → Casts .octave (s.num.data 0)) →
      frontAna opencl .octave kind x = .ok (.rejected true)) ∧
    (∀ No k, x.ro.shape = [No, 3] → x.geom.VecOf (if kind = .rect then 2 else 1) → x.sPar.VecOf 2 →
      SixthDoc .matlab kind x.sixth k → frontAna opencl .matlab kind x = .ub .cast) := by
  constructor
  · intro hb hk
    refine C67_refused opencl .octave (.inr rfl) kind x hx ⟨t, ht, ?_⟩ hk ?_
    · show IdxTy.signed.fits t = true
      simp only [IdxTy.fits, decide_eq_true_eq]
      have e2 : (2 : Int) ^ 63 = 9223372036854775808 := by decide
      constructor
      · exact hb
      · rw [e2]; omega
    · rintro ⟨No, nt, k, d⟩
      have := ht.symm.trans d.len
      simp only [Option.some.injEq] at this
      omega
  · intro No k hro hg hs h6
    have hnc : ¬ Casts .matlab (x.sPar.data 1) := by
      rintro ⟨t', e1, e2⟩
      rw [ht] at e1
      cases e1
      have : IdxTy.unsigned.fits t = false := by
        simp only [IdxTy.fits, decide_eq_false_iff_not]
        omega
      exact absurd (this.symm.trans e2) (by decide)
    have hcnt : kind.countOk x.sixth = true := by
      cases kind with
      | circ => rw [h6.1]; rfl
      | scirc => obtain ⟨s, e, _⟩ := h6; rw [e]; rfl
      | rect => rfl
    have hg' : x.geom.HasLen .matlab kind.numPars := by
      rw [Arg.vecOf_iff (.inl rfl)]; cases kind <;> exact hg
    have hnp : 1 ≤ kind.numPars := by cases kind <;> decide
    unfold frontAna
    rw [if_pos hcnt, ret_next, checkObs_eq .matlab hro, if_pos rfl, Outcome.ok_bind, ret_next,
      parseGeometry_eq .matlab (hx.geom.vecArg (.inl rfl)) _ hnp, if_pos hg', Outcome.ok_bind, ret_next,
      parsePair_eq (.inl rfl) hx.sPar, if_pos hs, Outcome.ok_bind, ret_next]
    dsimp only
    rw [castIdx_bad hnc]
    rfl

/-! ### The started computation -/

/-- C67: if the delay is not empty, the started computation has arguments of the right sizes: no
schedule with any number of threads leaves its buffers or hangs, and complete runs exist. -/
theorem C67_safe (opencl : Bool) (fe : FrontEnd) (hfe : fe.mo) (kind : AnaName) (x : AnaArgs F)
    (hx : x.Typed) (C : AnaCall F) (h : frontAna opencl fe kind x = .ok (.call (.cpu C)))
    (hd : x.delay.size ≠ 0) (H : Buf F) (hH : H.size = C.nt * C.No) :
    C.Sized H ∧ ∀ nth, (∀ as, ∃ s', exec C.drv.task as (initSys C.No nth H) = .ok s') ∧
      ∃ as s', Act.abort ∉ as ∧ C.drv.Run nth H as s' := by
  obtain ⟨No, nt, k, d, hr⟩ := (C67_started_iff opencl fe hfe kind x hx _).1 h
  have e : C = x.meant kind No nt k := by
    rcases hr with ⟨_, e⟩ | ⟨_, e⟩
    · cases e
    · cases e; rfl
  subst e
  have hs : (x.meant kind No nt k).Sized H := by
    refine ⟨Nat.mul_comm _ _, ?_, hH⟩
    show x.delay.size = match (if x.delay.size = 1 then DelayType.single else .multiple) with
      | .single => 1 | .multiple => No
    by_cases e1 : x.delay.size = 1
    · rw [if_pos e1]; exact e1
    · rw [if_neg e1]
      rcases d.delay with g | g | g
      · exact absurd g hd
      · exact absurd g e1
      · exact g
  exact ⟨hs, fun nth => AnaCall.terminates hs nth⟩

/-- C67: an empty delay is accepted (with otherwise documented arguments and at least one point), but
then every point's computation reads outside it, so that no run completes; on the GPU the host
itself reads outside it. -/
theorem C67_empty_delay (opencl : Bool) (fe : FrontEnd) (hfe : fe.mo) (kind : AnaName) (x : AnaArgs F)
    (hx : x.Typed) (No nt k : Nat) (d : AnaDoc fe kind x No nt k) (hd : x.delay.size = 0) (hN : 1 ≤ No) :
    ∃ r, frontAna opencl fe kind x = .ok (.call r) ∧ match r with
      | .cpu C => C.No = No ∧ (∀ n, n < No → ∀ fuel H, C.drv.serialAt n fuel H = .ub .oob) ∧
          ∀ nth, 1 ≤ nth → ∀ H as s', Act.abort ∉ as → ¬ C.drv.Run nth H as s'
      | .gpu C => ∀ a b, C.gpuArgs a b = .ub .oob := by
  have hprog : ∀ n, n < No → (x.meant kind No nt k).prog n = .bad .oob := by
    intro n hn
    have r : ∀ i, i < No * 3 → (⟨No * 3, x.ro.data⟩ : Buf F).read (i : Int) = .ok (x.ro.data i) :=
      fun i hi => Buf.read_nat _ _ hi
    have hin : (x.meant kind No nt k).inputs n = .ub .oob := by
      simp only [AnaCall.inputs, AnaArgs.meant, hd]
      rw [r n (by omega), r (n + 1 * No) (by omega), r (n + 2 * No) (by omega)]
      simp only [Outcome.ok_bind, if_neg (show ¬ (0 = 1) by decide)]
      unfold Buf.read
      rw [if_neg (by intro g; have := g.2; dsimp only at this; omega)]
      rfl
    unfold AnaCall.prog
    rw [hin]
    rfl
  by_cases hw : WantsGpu opencl fe kind x
  · refine ⟨_, (C67_started_iff opencl fe hfe kind x hx _).2 ⟨No, nt, k, d, .inl ⟨hw, rfl⟩⟩, ?_⟩
    intro a b
    unfold AnaCall.gpuArgs
    simp only [AnaArgs.meant, hd]
    unfold Buf.read
    rw [if_neg (by intro g; have := g.2; dsimp only at this; omega)]
    rfl
  · refine ⟨_, (C67_started_iff opencl fe hfe kind x hx _).2 ⟨No, nt, k, d, .inr ⟨hw, rfl⟩⟩, rfl, ?_, ?_⟩
    · intro n hn fuel H
      show ((x.meant kind No nt k).prog n).runBuf _ H = _
      rw [hprog n hn]
      rfl
    · intro nth h1 H as s' hab
      refine Drv.ofProg_stuck H 0 (show 0 < No by omega) ?_ ?_ nth h1 as hab s'
      · rw [hprog 0 (by omega)]; trivial
      · intro n hn; rw [hprog n hn]; trivial

/-! ### The synopsis in the Octave help texts -/

/-- The arguments `x` passed in the order of the synopsis of Octave's circ_sir and scirc_sir,
`(Ro,geom_par,delay,s_par,m_par)` (oct_circ_sir.cc 167, oct_scirc_sir.cc 165). -/
def AnaArgs.synopsis (x : AnaArgs F) : AnaArgs F := { x with sPar := x.delay, delay := x.sPar }

/-- C67: documented arguments in the order of the synopsis are refused, except when there are two
points with a delay each: then they are accepted with the delays taken for sampling interval and
length and the sampling parameters for the delays (the second delay being a possible length). -/
theorem C67_synopsis (fe : FrontEnd) (hfe : fe.mo) (opencl : Bool) (kind : AnaName) (hk : kind ≠ .rect)
    (x : AnaArgs F) (hx : x.Typed) (No nt k : Nat) (d : AnaDoc fe kind x No nt k) :
    (¬ x.delay.VecOf 2 → frontAna opencl fe kind x.synopsis = .ok (.rejected true)) ∧
    (x.delay.VecOf 2 → ∀ t : Nat, trunc (x.delay.data 1) = some (t : Int) → fe.idx.fits t = true →
      ∃ C, frontAna opencl fe kind x.synopsis = .ok (.call (.cpu C)) ∧ C.No = 2 ∧ C.dt = x.delay.data 0 ∧
        C.nt = t ∧ C.delayAt 0 = x.sPar.data 0 ∧ C.delayAt 1 = x.sPar.data 1) := by
  have hx' : x.synopsis.Typed := ⟨hx.ro, hx.geom, hx.delay, hx.sPar, hx.mPar, hx.sixth⟩
  constructor
  · intro hv
    have key := C67_outcomes opencl fe hfe kind x.synopsis hx'
    generalize frontAna opencl fe kind x.synopsis = o at key
    cases key with
    | started No' nt' k' d' w => exact absurd d'.sPar hv
    | startedGpu No' nt' k' d' w => exact absurd d'.sPar hv
    | refused g => rfl
    | badLength No' h1 h2 h3 => exact absurd h2 hv
    | badIntervals s e1 e2 e3 e4 =>
      subst e1
      obtain ⟨s', g1, g2, g3, g4, g5⟩ := d.sixth
      have e2 : x.sixth = some s := e2
      rw [e2] at g1
      cases g1
      exact absurd ⟨_, g3, g4⟩ e4
  · intro hv t ht hf
    have h2 : x.delay.size = 2 := ((Arg.vecOf_iff hfe).2 hv).size
    have hN : No = 2 := by
      have := d.delay
      omega
    subst hN
    have hs2 : x.sPar.size = 2 := ((Arg.vecOf_iff hfe).2 d.sPar).size
    have d' : AnaDoc fe kind x.synopsis 2 t k :=
      ⟨d.ro, d.geom, hv, ht, hf, .inr (.inr hs2), d.mPar, d.sixth⟩
    refine ⟨_, (C67_started_iff opencl fe hfe kind x.synopsis hx' _).2
      ⟨2, t, k, d', .inr ⟨fun g => hk g.2.2.1, rfl⟩⟩, rfl, rfl, rfl, ?_, ?_⟩
    · have : x.synopsis.delay.size ≠ 1 := by show x.sPar.size ≠ 1; omega
      unfold AnaCall.delayAt AnaArgs.meant
      rw [if_neg this]
      rfl
    · have : x.synopsis.delay.size ≠ 1 := by show x.sPar.size ≠ 1; omega
      unfold AnaCall.delayAt AnaArgs.meant
      rw [if_neg this]
      rfl

/-- C67: the synopsis of scirc_sir has five arguments; five arguments are always refused. -/
theorem C67_synopsis_scirc (opencl : Bool) (fe : FrontEnd) (x : AnaArgs F) (h : x.sixth = none) :
    frontAna opencl fe .scirc x = .ok (.rejected true) := by
  unfold frontAna
  rw [h, if_neg (by simp [AnaName.countOk]), failMsg_next]

end General

/-! ### End to end, exact arithmetic -/

/-- C67: an accepted call of circ_sir with a non-empty delay computes, in exact arithmetic and with
every number of threads and schedule, the analytic response of a circular piston with the given
radius, in terms of the user's arguments. -/
theorem C67_circ_sir (opencl : Bool) (fe : FrontEnd) (hfe : fe.mo) (x : AnaArgs ℝ)
    (hx : x.Typed) (C : AnaCall ℝ) (h : frontAna opencl fe .circ x = .ok (.call (.cpu C)))
    (hd : x.delay.size ≠ 0) (H : Buf ℝ) (hH : H.size = C.nt * C.No)
    (nth : ℕ) (h1 : 1 ≤ nth) (as : List Act) (hab : Act.abort ∉ as)
    (s' : Sys ℝ (Prog ℝ SIRError)) (hrun : C.drv.Run nth H as s')
    (No nt : ℕ) (hNo : x.ro.shape = [No, 3]) (hnt : trunc (x.sPar.data 1) = some (nt : ℤ))
    (n : ℕ) (hn : n < No) (it : ℕ) (hit : it < nt) (hr : 0 ≤ x.geom.data 0)
    (xo yo zo r v cp t : ℝ) (hxo : xo = x.ro.data n / 1000) (hyo : yo = x.ro.data (n + No) / 1000)
    (hzo : zo = x.ro.data (n + 2 * No) / 1000) (hz : 0 ≤ zo) (hrr : r = x.geom.data 0 / 1000)
    (hv : v = x.mPar.data 0) (hcp : cp = x.mPar.data 1)
    (ht : t = (it * x.sPar.data 0 + x.delay.data (if x.delay.size = 1 then 0 else n)) / 1000000)
    (hne : ¬ (r = Real.sqrt (xo ^ 2 + yo ^ 2) ∧ cp * t = zo)) :
    s'.mem.data (n * nt + it) = if cp * t < zo then 0
      else v * cp * circleFraction (disc r) xo yo (Real.sqrt ((cp * t) ^ 2 - zo ^ 2)) := by
  have hs := (C67_safe opencl fe hfe .circ x hx C h hd H hH).1
  obtain ⟨No', nt', k, d, hr'⟩ := (C67_started_iff opencl fe hfe .circ x hx _).1 h
  have e : C = x.meant .circ No' nt' k := by
    rcases hr' with ⟨_, e⟩ | ⟨_, e⟩
    · cases e
    · cases e; rfl
  have e1 : No = No' := by simpa using hNo.symm.trans d.ro
  have e2 : nt = nt' := by simpa using hnt.symm.trans d.len
  subst e1 e2 e
  have hz' : 0 ≤ x.ro.data (n + 2 * No) := by
    rw [hzo] at hz
    linarith [mul_nonneg hz (by norm_num : (0:ℝ) ≤ 1000), div_mul_cancel₀ (x.ro.data (n + 2 * No)) (by norm_num : (1000:ℝ) ≠ 0)]
  have htt : (x.meant .circ No nt k).time n it = t := by
    rw [ht]
    unfold AnaCall.time AnaCall.delayAt AnaArgs.meant
    by_cases g : x.delay.size = 1
    · simp only [if_pos g]
    · simp only [if_neg g]
  have key := C33_circ_sir (x.geom.data 0) rfl hs hr nth h1 as hab s' hrun n hn it hit hz' (by
    rw [htt]
    subst hxo hyo hzo hrr hv hcp
    exact hne)
  rw [htt] at key
  subst hxo hyo hzo hrr hv hcp
  exact key

/-! ### Concrete cases -/

section Example
attribute [local instance] toyArith

/-- Two points, radius 10, `dt = 1`, 50 samples, a delay for each point. -/
def exAnaArgs (sixth : Option (SixthArg Int)) (geom : Arg Int) : AnaArgs Int where
  ro := ⟨[2, 3], fun i => 7 * i⟩
  geom := geom
  sPar := ⟨[1, 2], fun i => if i = 0 then 1 else 50⟩
  delay := ⟨[2, 1], fun i => if i = 0 then 3 else 4⟩
  mPar := ⟨[1, 2], fun i => if i = 0 then 1 else 1500⟩
  sixth := sixth

theorem exAnaArgs_typed (sixth : Option (SixthArg Int)) (geom : Arg Int) (hg : geom.IsMatrix)
    (h : ∀ s, sixth = some s → s.num.IsMatrix) : (exAnaArgs sixth geom).Typed :=
  ⟨⟨_, _, rfl⟩, hg, ⟨_, _, rfl⟩, ⟨_, _, rfl⟩, ⟨_, _, rfl⟩, h⟩

-- documented arguments of the three functions
example : AnaDoc .matlab .circ (exAnaArgs none ⟨[1, 1], fun _ => 10⟩) 2 50 0 :=
  ⟨rfl, .inl rfl, .inr rfl, rfl, by decide, .inr (.inr rfl), .inr rfl, ⟨rfl, rfl⟩⟩
example : AnaDoc .octave .scirc (exAnaArgs (some ⟨⟨[1, 1], fun _ => 8⟩, .other⟩) ⟨[1, 1], fun _ => 10⟩) 2 50 8 :=
  ⟨rfl, .inl rfl, .inr rfl, rfl, by decide, .inr (.inr rfl), .inr rfl,
    ⟨_, rfl, rfl, rfl, by decide, by decide⟩⟩
example : AnaDoc .octave .rect (exAnaArgs (some ⟨⟨[1, 3], fun _ => 103⟩, .text "gpu"⟩) ⟨[2, 1], fun _ => 10⟩) 2 50 0 :=
  ⟨rfl, .inl rfl, .inr rfl, rfl, by decide, .inr (.inr rfl), .inr rfl, ⟨rfl, fun _ s h => by cases h; exact ⟨_, rfl⟩⟩⟩

-- the synopsis order: dt = 3, nt = 4, delays 1 and 50
example : ∃ C, frontAna false .octave .circ (exAnaArgs none ⟨[1, 1], fun _ => 10⟩).synopsis = .ok (.call (.cpu C)) ∧
    C.No = 2 ∧ C.dt = 3 ∧ C.nt = 4 ∧ C.delayAt 0 = 1 ∧ C.delayAt 1 = 50 :=
  (C67_synopsis .octave (.inr rfl) false .circ (by decide) _
    (exAnaArgs_typed none ⟨[1, 1], fun _ => 10⟩ ⟨_, _, rfl⟩ (fun s h => by cases h)) 2 50 0
    ⟨rfl, .inl rfl, .inr rfl, rfl, by decide, .inr (.inr rfl), .inr rfl, ⟨rfl, rfl⟩⟩).2 (.inl rfl) 4 rfl (by decide)

-- the device: text "gpu" with OpenCL selects the kernel, "GPU" does not
example : WantsGpu true .octave .rect (exAnaArgs (some ⟨⟨[1, 3], fun _ => 103⟩, .text "gpu"⟩) ⟨[2, 1], fun _ => 10⟩) :=
  ⟨rfl, rfl, rfl, _, rfl, rfl⟩
example : ¬ WantsGpu true .octave .rect (exAnaArgs (some ⟨⟨[1, 3], fun _ => 103⟩, .text "GPU"⟩) ⟨[2, 1], fun _ => 10⟩) := by
  rintro ⟨_, _, _, s, e, g⟩
  cases e
  simp at g

-- an empty delay
example : ∃ x : AnaArgs Int, x.Typed ∧ AnaDoc .octave .circ x 2 50 0 ∧ x.delay.size = 0 :=
  ⟨{ exAnaArgs none ⟨[1, 1], fun _ => 10⟩ with delay := ⟨[0, 0], fun _ => 0⟩ },
    ⟨⟨_, _, rfl⟩, ⟨_, _, rfl⟩, ⟨_, _, rfl⟩, ⟨_, _, rfl⟩, ⟨_, _, rfl⟩, fun s h => by cases h⟩,
    ⟨rfl, .inl rfl, .inr rfl, rfl, by decide, .inl rfl, .inr rfl, ⟨rfl, rfl⟩⟩, rfl⟩

-- an undocumented call: three numbers of sampling parameters
example : frontAna false .octave .circ { exAnaArgs none ⟨[1, 1], fun _ => 10⟩ with sPar := ⟨[1, 3], fun _ => 1⟩ } =
    .ok (.rejected true) :=
  C67_refused false .octave (.inr rfl) .circ _
    ⟨⟨_, _, rfl⟩, ⟨_, _, rfl⟩, ⟨_, _, rfl⟩, ⟨_, _, rfl⟩, ⟨_, _, rfl⟩, fun s h => by cases h⟩
    ⟨1, rfl, by decide⟩ (fun h => by cases h) (by
      rintro ⟨_, _, _, d⟩
      rcases d.sPar with h | h <;> simp at h)

end Example

/-- One point 5 mm in front of a piston of radius 10 mm. -/
noncomputable def exAnaReal : AnaArgs ℝ where
  ro := ⟨[1, 3], fun i => if i = 2 then 5 else 0⟩
  geom := ⟨[1, 1], fun _ => 10⟩
  sPar := ⟨[1, 2], fun i => if i = 0 then 1 else 50⟩
  delay := ⟨[1, 1], fun _ => 0⟩
  mPar := ⟨[1, 2], fun i => if i = 0 then 1 else 1500⟩
  sixth := none

-- C67_circ_sir: there is such a call, and every complete run of it has sample 4 as stated
example (opencl : Bool) : ∃ C, frontAna opencl .octave .circ exAnaReal = .ok (.call (.cpu C)) ∧
    ∀ (H : Buf ℝ), H.size = C.nt * C.No → ∀ as, Act.abort ∉ as → ∀ s', C.drv.Run 3 H as s' →
      s'.mem.data 4 = 1 * 1500 * circleFraction (disc (10 / 1000)) 0 0
        (Real.sqrt ((1500 * (4 / 1000000)) ^ 2 - (5 / 1000) ^ 2)) := by
  have ty : exAnaReal.Typed :=
    ⟨⟨_, _, rfl⟩, ⟨_, _, rfl⟩, ⟨_, _, rfl⟩, ⟨_, _, rfl⟩, ⟨_, _, rfl⟩, fun s h => by cases h⟩
  have hl : trunc (exAnaReal.sPar.data 1) = some ((50 : ℕ) : ℤ) := by
    show trunc ((if 1 = 0 then 1 else 50 : ℝ)) = _
    rw [if_neg (by decide), r_trunc]
    norm_num [truncR]
  have d : AnaDoc .octave .circ exAnaReal 1 50 0 :=
    ⟨rfl, .inl rfl, .inr rfl, hl, by decide, .inr (.inl rfl), .inr rfl, ⟨rfl, rfl⟩⟩
  have hc := (C67_started_iff opencl .octave (.inr rfl) .circ exAnaReal ty
    (.cpu (exAnaReal.meant .circ 1 50 0))).2 ⟨1, 50, 0, d, .inr ⟨fun g => (by cases g.2.2.1), rfl⟩⟩
  refine ⟨_, hc, fun H hH as hab s' hrun => ?_⟩
  have key := C67_circ_sir opencl .octave (.inr rfl) exAnaReal ty _ hc (by decide) H hH 3 (by decide) as hab s'
    hrun 1 50 rfl hl 0 (by decide) 4 (by decide) (by norm_num [exAnaReal]) 0 0 (5 / 1000) (10 / 1000) 1 1500 (4 / 1000000)
    (by norm_num [exAnaReal]) (by norm_num [exAnaReal]) (by norm_num [exAnaReal]) (by norm_num)
    (by norm_num [exAnaReal]) (by norm_num [exAnaReal]) (by norm_num [exAnaReal])
    (by norm_num [exAnaReal, Arg.size]) (by rintro ⟨_, h⟩; norm_num at h)
  rw [if_neg (by norm_num)] at key
  exact key

end Dream
