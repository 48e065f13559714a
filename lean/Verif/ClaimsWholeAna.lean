import Verif.WholeAna
import Verif.ClaimsWholeConv
import Verif.ClaimsAnaFront
import Verif.ClaimsCopy

/-
C89: whole calls of circ_sir, scirc_sir, rect_sir, copy_p and add_p.
-/

namespace Dream
open Arith

/-! ### The analytic responses -/

section Ana
variable {F : Type} [Arith F]

/-- The variable is set to a text that gives an exception, and the function looks at it (Octave's scirc_sir
does not). -/
def AnaThrows (fe : FrontEnd) (kind : AnaName) (env : Option String) : Prop :=
  BadEnv env ∧ ¬ (fe = .octave ∧ kind = .scirc)

/-- The answer with response `h i n` in row `i` of column `n`. -/
noncomputable def anaAnswer (throws : Prop) (No nt : Nat) (h : Nat → Nat → F) : Seen F :=
  open Classical in
  if throws then .thrown
  else .matrix false none nt No fun i n => if i < nt ∧ n < No then h i n else lit 0

theorem not_badEnv_unset : ¬ BadEnv none := by
  rintro ⟨s, h, _⟩
  cases h

theorem anaThrows_iff (fe : FrontEnd) (kind : AnaName) (env : Option String) :
    BadEnv (kind.envSeen fe env) ↔ AnaThrows fe kind env := by
  unfold AnaThrows
  cases kind <;> cases fe <;> simp [AnaName.envSeen, not_badEnv_unset]

theorem AnaCall.sees (C : AnaCall F) (hs : C.Sized ⟨C.No * C.nt, fun _ => lit 0⟩) (t : CntTy) (hw : ℕ)
    (env : Option String) (o : Seen F) :
    C.drv.Sees convTail t hw env ⟨C.No * C.nt, fun _ => lit 0⟩ o ↔
      o = anaAnswer (BadEnv env) C.No C.nt (fun i n => C.sample n i) := by
  rw [Drv.sees_clean (AnaCall.faithful hs) (fun n i => C.sample n i) (fun n hn => AnaCall.serial hs n hn 0)]
  unfold anaAnswer
  by_cases hb : BadEnv env
  · rw [(badEnv_iff t hw env _).2 hb, if_pos hb]
    rfl
  · rw [if_neg hb]
    cases ht : chooseThreads t hw env C.drv.No with
    | none => exact absurd ((badEnv_iff t hw env _).1 ht) hb
    | some nth => rfl

theorem AnaArgs.meant_sized {fe : FrontEnd} {kind : AnaName} {x : AnaArgs F} {No nt k : ℕ}
    (d : AnaDoc fe kind x No nt k) (hd : x.delay.size ≠ 0) (H : Buf F) (hH : H.size = No * nt) :
    (x.meant kind No nt k).Sized H := by
  refine ⟨Nat.mul_comm _ _, ?_, hH.trans (Nat.mul_comm _ _)⟩
  show x.delay.size = match (if x.delay.size = 1 then DelayType.single else .multiple) with
    | .single => 1 | .multiple => No
  by_cases e1 : x.delay.size = 1
  · rw [if_pos e1]; exact e1
  · rw [if_neg e1]
    rcases d.delay with g | g | g
    · exact absurd g hd
    · exact absurd g e1
    · exact g

theorem AnaArgs.meant_bad {fe : FrontEnd} {kind : AnaName} {x : AnaArgs F} {No nt k : ℕ}
    (d : AnaDoc fe kind x No nt k) (hd : x.delay.size = 0) (n : ℕ) (hn : n < No) :
    (x.meant kind No nt k).prog n = .bad .oob := by
  have r : ∀ i, i < No * 3 → (⟨No * 3, x.ro.data⟩ : Buf F).read (i : Int) = .ok (x.ro.data i) :=
    fun i hi => Buf.read_nat _ _ hi
  have hin : (x.meant kind No nt k).inputs n = .ub .oob := by
    simp only [AnaCall.inputs, AnaArgs.meant, hd]
    rw [r n (by omega), r (n + 1 * No) (by omega), r (n + 2 * No) (by omega)]
    simp only [Outcome.ok_bind, if_neg (show ¬ (0 = 1) by decide)]
    unfold Buf.read
    rw [if_neg (by intro g; have := g.2; dsimp only at this; omega)]
    rfl
  unfold AnaCall.prog
  rw [hin]
  rfl

/-- C89: with documented arguments, a non-empty delay and nobody pressing CTRL-C, exactly one thing can happen,
whatever the number of cores and the schedule of the workers: the exception for an unusable variable, or the
`nt` by `No` matrix whose column `n` belongs to point `n`. -/
theorem ana_sees (opencl : Bool) (fe : FrontEnd) (hfe : fe.mo) (kind : AnaName) (x : AnaArgs F) (hx : x.Typed)
    (No nt k : ℕ) (d : AnaDoc fe kind x No nt k) (hg : ¬ WantsGpu opencl fe kind x) (hd : x.delay.size ≠ 0)
    (hw : ℕ) (env : Option String) (o : Seen F) :
    AnaSees opencl fe kind x hw env o ↔
      o = anaAnswer (AnaThrows fe kind env) No nt (fun i n => (x.meant kind No nt k).sample n i) := by
  have hf := (C67_started_iff opencl fe hfe kind x hx (.cpu (x.meant kind No nt k))).2
    ⟨No, nt, k, d, .inr ⟨hg, rfl⟩⟩
  have hs := AnaCall.sees (x.meant kind No nt k) (AnaArgs.meant_sized d hd _ rfl) (kind.cnt fe) hw
    (kind.envSeen fe env)
  have he : (BadEnv (kind.envSeen fe env)) = AnaThrows fe kind env := propext (anaThrows_iff fe kind env)
  rw [← he]
  constructor
  · intro h
    cases h with
    | refused b h' => rw [hf] at h'; simp at h'
    | undefined h' => exact absurd hf (h' _)
    | called C h' o hs' =>
      rw [hf] at h'
      obtain rfl : x.meant kind No nt k = C := by simpa using h'
      exact (hs o).1 hs'
  · intro h
    exact .called _ hf o ((hs o).2 h)

/-- Undocumented arguments: what the caller may see. -/
theorem C89_ana_refused (opencl : Bool) (fe : FrontEnd) (hfe : fe.mo) (kind : AnaName) (x : AnaArgs F)
    (hx : x.Typed) (hl : Casts fe (x.sPar.data 1))
    (hk : kind = .scirc → ∀ s, x.sixth = some s → Casts fe (s.num.data 0))
    (h : ¬ ∃ No nt k, AnaDoc fe kind x No nt k) (hw : ℕ) (env : Option String) (o : Seen F) :
    AnaSees opencl fe kind x hw env o ↔ o = .refused true := by
  have hr := C67_refused opencl fe hfe kind x hx hl hk h
  constructor
  · intro hs
    cases hs with
    | refused b h' => rw [hr] at h'; simp only [Outcome.ok.injEq, Front.rejected.injEq] at h'; rw [h']
    | undefined h' => exact absurd hr (h' _)
    | called C h' => rw [hr] at h'; simp at h'
  · rintro rfl
    exact .refused true hr

/-- C89, a violation: an empty delay is accepted, and then the call (with at least one point) has undefined
behaviour, unless the variable throws first. -/
theorem C89_ana_empty_delay_violated (opencl : Bool) (fe : FrontEnd) (hfe : fe.mo) (kind : AnaName)
    (x : AnaArgs F) (hx : x.Typed) (No nt k : ℕ) (d : AnaDoc fe kind x No nt k)
    (hg : ¬ WantsGpu opencl fe kind x) (hd : x.delay.size = 0) (hN : 1 ≤ No) (hw : ℕ) (env : Option String)
    (o : Seen F) :
    AnaSees opencl fe kind x hw env o ↔
      o = (open Classical in if AnaThrows fe kind env then .thrown else .undefined) := by
  have hf := (C67_started_iff opencl fe hfe kind x hx (.cpu (x.meant kind No nt k))).2
    ⟨No, nt, k, d, .inr ⟨hg, rfl⟩⟩
  obtain ⟨r, hr, hm⟩ := C67_empty_delay opencl fe hfe kind x hx No nt k d hd hN
  rw [hf] at hr
  obtain rfl : AnaRun.cpu (x.meant kind No nt k) = r := by simpa using hr
  obtain ⟨hNo, hser, hrun⟩ := hm
  have hsp : (x.meant kind No nt k).drv.Spinless := by
    refine ⟨(x.meant kind No nt k).prog, rfl, fun n hn => ?_⟩
    rw [AnaArgs.meant_bad d hd n hn]
    trivial
  have key := fun o => Drv.sees_stuck hsp (kind.cnt fe) hw (kind.envSeen fe env) (m := ⟨No * nt, fun _ => lit 0⟩)
    (fun nth hc as s' hab => hrun nth (C72_count _ _ _ _ _ hc).1 _ as s' hab) o
  have e : (open Classical in if AnaThrows fe kind env then Seen.thrown else .undefined : Seen F) =
      (open Classical in if BadEnv (kind.envSeen fe env) then .thrown else .undefined) := by
    by_cases h : AnaThrows fe kind env
    · rw [if_pos h, if_pos ((anaThrows_iff fe kind env).2 h)]
    · rw [if_neg h, if_neg fun g => h ((anaThrows_iff fe kind env).1 g)]
  rw [e, ← key]
  constructor
  · intro ho
    cases ho with
    | refused b h' => rw [hf] at h'; simp at h'
    | undefined h' => exact absurd hf (h' _)
    | called C h' o hs' =>
      rw [hf] at h'
      obtain rfl : x.meant kind No nt k = C := by simpa using h'
      exact hs'
  · intro ho
    exact .called _ hf _ ho

end Ana

/-! ### The responses in exact arithmetic -/

section Real

/-- Point `n` in metres, and the time of sample `i` at it in seconds, in terms of the arguments. -/
noncomputable def AnaArgs.px (x : AnaArgs ℝ) (n : ℕ) : ℝ := x.ro.data n / 1000
noncomputable def AnaArgs.py (x : AnaArgs ℝ) (No n : ℕ) : ℝ := x.ro.data (n + No) / 1000
noncomputable def AnaArgs.pz (x : AnaArgs ℝ) (No n : ℕ) : ℝ := x.ro.data (n + 2 * No) / 1000
noncomputable def AnaArgs.time (x : AnaArgs ℝ) (n i : ℕ) : ℝ :=
  (i * x.sPar.data 0 + x.delay.data (if x.delay.size = 1 then 0 else n)) / 1000000

theorem AnaArgs.meant_time (x : AnaArgs ℝ) (kind : AnaName) (No nt k n i : ℕ) :
    (x.meant kind No nt k).time n i = x.time n i := by
  unfold AnaCall.time AnaCall.delayAt AnaArgs.meant AnaArgs.time
  by_cases g : x.delay.size = 1
  · simp only [if_pos g]
  · simp only [if_neg g]

/-- A complete run gives the samples. -/
theorem AnaCall.some_run (C : AnaCall ℝ) (H : Buf ℝ) (h : C.Sized H) :
    ∃ as s', Act.abort ∉ as ∧ C.drv.Run 1 H as s' ∧
      ∀ n < C.No, ∀ i < C.nt, s'.mem.data (n * C.nt + i) = C.sample n i := by
  obtain ⟨as, s', g1, g2⟩ := (AnaCall.terminates h 1).2
  exact ⟨as, s', g1, g2, fun n hn i hi => AnaCall.run_samples h 1 le_rfl as g1 s' g2 n hn i hi⟩

/-- C89, circ_sir: a call with documented arguments and a non-empty delay has exactly one answer: the exception for
an unusable variable, or the matrix whose entry in row `i` of column `n` is, for a point in front of the
piston, zero before the wave front reaches the plane of the piston, and then `v*cp` times the fraction of the
circle cut out of that plane by the sphere of radius `cp*t` around the point that lies on the piston. -/
theorem C89_circ_sir (opencl : Bool) (fe : FrontEnd) (hfe : fe.mo) (x : AnaArgs ℝ) (hx : x.Typed) (No nt k : ℕ)
    (d : AnaDoc fe .circ x No nt k) (hd : x.delay.size ≠ 0) (hr : 0 ≤ x.geom.data 0) (hw : ℕ)
    (env : Option String) :
    ∃ h : ℕ → ℕ → ℝ, (∀ o, AnaSees opencl fe .circ x hw env o ↔ o = anaAnswer (BadEnv env) No nt h) ∧
      ∀ n < No, ∀ i < nt, ∀ r v cp t X Y Z : ℝ, r = x.geom.data 0 / 1000 → v = x.mPar.data 0 →
        cp = x.mPar.data 1 → t = x.time n i → X = x.px n → Y = x.py No n → Z = x.pz No n → 0 ≤ Z →
        ¬ (r = Real.sqrt (X ^ 2 + Y ^ 2) ∧ cp * t = Z) →
        h i n = if cp * t < Z then 0
          else v * cp * circleFraction (disc r) X Y (Real.sqrt ((cp * t) ^ 2 - Z ^ 2)) := by
  have hth : AnaThrows fe .circ env = BadEnv env := by unfold AnaThrows; simp
  refine ⟨fun i n => (x.meant .circ No nt k).sample n i, fun o => ?_, ?_⟩
  · rw [ana_sees opencl fe hfe .circ x hx No nt k d (fun g => by cases g.2.2.1) hd, hth]
  · rintro n hn i hi r v cp t X Y Z rfl rfl rfl rfl rfl rfl rfl hZ hne
    have hs := AnaArgs.meant_sized d hd ⟨No * nt, fun _ => (0 : ℝ)⟩ rfl
    obtain ⟨as, s', g1, g2, g3⟩ := AnaCall.some_run _ _ hs
    have hz : 0 ≤ x.ro.data (n + 2 * No) := by
      have : x.pz No n = x.ro.data (n + 2 * No) / 1000 := rfl
      rw [this] at hZ
      linarith [mul_nonneg hZ (by norm_num : (0:ℝ) ≤ 1000),
        div_mul_cancel₀ (x.ro.data (n + 2 * No)) (by norm_num : (1000:ℝ) ≠ 0)]
    have key := C33_circ_sir (x.geom.data 0) rfl hs hr 1 le_rfl as g1 s' g2 n hn i hi hz (by
      rw [AnaArgs.meant_time]; exact hne)
    have e := g3 n hn i hi
    show (x.meant .circ No nt k).sample n i = _
    rw [← e, key, AnaArgs.meant_time]
    rfl

/-- C89, scirc_sir: the same with the mean over the sampling interval (C46): `v*cp` during the part of the
interval before the first rim arrival (for points above the piston) and `v*cp` times the trapezoidal rule with
`k` intervals for the arc fraction during the part between the rim arrivals.  Octave's function does not look at
the variable. -/
theorem C89_scirc_sir (opencl : Bool) (fe : FrontEnd) (hfe : fe.mo) (x : AnaArgs ℝ) (hx : x.Typed) (No nt k : ℕ)
    (d : AnaDoc fe .scirc x No nt k) (hd : x.delay.size ≠ 0) (hr : 0 ≤ x.geom.data 0) (hcp : 0 < x.mPar.data 1)
    (hdt : 0 < x.sPar.data 0) (hw : ℕ) (env : Option String) :
    ∃ h : ℕ → ℕ → ℝ,
      (∀ o, AnaSees opencl fe .scirc x hw env o ↔ o = anaAnswer (BadEnv env ∧ fe ≠ .octave) No nt h) ∧
      ∀ n < No, ∀ i < nt, ∀ r v cp dt t lo hi rc near far Z : ℝ, r = x.geom.data 0 / 1000 → v = x.mPar.data 0 →
        cp = x.mPar.data 1 → dt = x.sPar.data 0 / 1000000 → t = x.time n i → Z = x.pz No n →
        rc = Real.sqrt (x.px n ^ 2 + x.py No n ^ 2) → near = Real.sqrt (Z ^ 2 + (r - rc) ^ 2) →
        far = Real.sqrt (Z ^ 2 + (r + rc) ^ 2) → lo = max 0 (t - dt / 2) → hi = t + dt / 2 →
        0 ≤ Z → 0 ≤ x.delay.data (if x.delay.size = 1 then 0 else n) →
        h i n = (v * cp * (if rc < r then overlap lo hi (Z / cp) (near / cp) else 0) +
          v * cp / Real.pi * trapOver (arcAngle Z r rc cp) lo hi (near / cp) (far / cp) k) / dt := by
  have hth : AnaThrows fe .scirc env = (BadEnv env ∧ fe ≠ .octave) := by unfold AnaThrows; simp
  refine ⟨fun i n => (x.meant .scirc No nt k).sample n i, fun o => ?_, ?_⟩
  · rw [ana_sees opencl fe hfe .scirc x hx No nt k d (fun g => by cases g.2.2.1) hd, hth]
  · rintro n hn i hi' r v cp dt t lo hi rc near far Z rfl rfl rfl rfl rfl rfl rfl rfl rfl rfl rfl hZ hdl
    have hs := AnaArgs.meant_sized d hd ⟨No * nt, fun _ => (0 : ℝ)⟩ rfl
    obtain ⟨as, s', g1, g2, g3⟩ := AnaCall.some_run _ _ hs
    have hz : 0 ≤ x.ro.data (n + 2 * No) := by
      have : x.pz No n = x.ro.data (n + 2 * No) / 1000 := rfl
      rw [this] at hZ
      linarith [mul_nonneg hZ (by norm_num : (0:ℝ) ≤ 1000),
        div_mul_cancel₀ (x.ro.data (n + 2 * No)) (by norm_num : (1000:ℝ) ≠ 0)]
    have hdl' : 0 ≤ (x.meant .scirc No nt k).delayAt n := by
      unfold AnaCall.delayAt AnaArgs.meant
      by_cases g : x.delay.size = 1
      · simp only [if_pos g] at hdl ⊢; exact hdl
      · simp only [if_neg g] at hdl ⊢; exact hdl
    have key := C46_scirc_sir (x.geom.data 0) k rfl hs hr hcp hdt 1 le_rfl as g1 s' g2 n hn i hi' hz hdl'
      _ _ _ _ _ rfl rfl rfl rfl rfl
    have e := g3 n hn i hi'
    show (x.meant .scirc No nt k).sample n i = _
    rw [← e, key]
    unfold AnaCall.tLo AnaCall.tHi
    rw [AnaArgs.meant_time]
    rfl

/-- C89, rect_sir on the CPU: entries as in C34: zero before the wave front reaches the plane of the aperture and
then, for a point whose projection is outside the aperture, `cp` times the fraction of the circle on the aperture;
for a point above the aperture an error term is added.  The factor `v` is missing. -/
theorem C89_rect_sir (opencl : Bool) (fe : FrontEnd) (hfe : fe.mo) (x : AnaArgs ℝ) (hx : x.Typed) (No nt k : ℕ)
    (d : AnaDoc fe .rect x No nt k) (hg : ¬ WantsGpu opencl fe .rect x) (hd : x.delay.size ≠ 0)
    (ha : 0 < x.geom.data 0) (hb : 0 < x.geom.data 1) (hcp : 0 < x.mPar.data 1) (hw : ℕ) (env : Option String) :
    ∃ h : ℕ → ℕ → ℝ, (∀ o, AnaSees opencl fe .rect x hw env o ↔ o = anaAnswer (BadEnv env) No nt h) ∧
      ∀ n < No, ∀ i < nt, ∀ a b cp t X Y Z σ : ℝ, a = x.geom.data 0 / 1000 → b = x.geom.data 1 / 1000 →
        cp = x.mPar.data 1 → t = x.time n i → X = x.px n → Y = x.py No n → Z = x.pz No n → 0 ≤ Z →
        σ = Real.sqrt ((cp * t) ^ 2 - Z ^ 2) →
        (¬ (|X| ≤ a / 2 ∧ |Y| ≤ b / 2) → cp * t ≠ Z →
          h i n = if cp * t < Z then 0 else cp * circleFraction (rectangle a b) X Y σ) ∧
        (|X| ≤ a / 2 → |Y| ≤ b / 2 → Z < cp * t →
          h i n = cp * circleFraction (rectangle a b) X Y σ +
            cp * (quarterFraction (a / 2 - |X|) (b / 2 - |Y|) σ - quarterFraction (a / 2 - |X|) (b / 2 + |Y|) σ)) := by
  have hth : AnaThrows fe .rect env = BadEnv env := by unfold AnaThrows; simp
  refine ⟨fun i n => (x.meant .rect No nt k).sample n i, fun o => ?_, ?_⟩
  · rw [ana_sees opencl fe hfe .rect x hx No nt k d hg hd, hth]
  · rintro n hn i hi a b cp t X Y Z σ rfl rfl rfl rfl rfl rfl rfl hZ rfl
    have hs := AnaArgs.meant_sized d hd ⟨No * nt, fun _ => (0 : ℝ)⟩ rfl
    obtain ⟨as, s', g1, g2, g3⟩ := AnaCall.some_run _ _ hs
    have hz : 0 ≤ x.ro.data (n + 2 * No) := by
      have : x.pz No n = x.ro.data (n + 2 * No) / 1000 := rfl
      rw [this] at hZ
      linarith [mul_nonneg hZ (by norm_num : (0:ℝ) ≤ 1000),
        div_mul_cancel₀ (x.ro.data (n + 2 * No)) (by norm_num : (1000:ℝ) ≠ 0)]
    have ea : ∀ y : ℝ, |y / 1000| = |y| / 1000 := fun y => by rw [abs_div]; norm_num
    have ex : |x.px n| = |x.ro.data n| / 1000 := ea _
    have ey : |x.py No n| = |x.ro.data (n + No)| / 1000 := ea _
    have e := g3 n hn i hi
    constructor
    · intro hout hne
      have key := C34_outside (x.geom.data 0) (x.geom.data 1) rfl hs ha hb hcp 1 le_rfl as g1 s' g2 n hn i hi hz
        (by
          rintro ⟨p, q⟩
          apply hout
          rw [ex, ey]
          change |x.ro.data n| ≤ _ at p
          change |x.ro.data (n + No)| ≤ _ at q
          constructor <;> linarith)
        (by rw [AnaArgs.meant_time]; exact fun g => hne g.1)
      show (x.meant .rect No nt k).sample n i = _
      rw [← e, key, AnaArgs.meant_time]
      rfl
    · intro hX hY ht
      have key := C34_inside (x.geom.data 0) (x.geom.data 1) rfl hs ha hb hcp 1 le_rfl as g1 s' g2 n hn i hi hz
        (by change |x.ro.data n| ≤ _; rw [ex] at hX; linarith)
        (by change |x.ro.data (n + No)| ≤ _; rw [ey] at hY; linarith)
        (by rw [AnaArgs.meant_time]; exact ht) _ rfl
      show (x.meant .rect No nt k).sample n i = _
      rw [← e, key, AnaArgs.meant_time, ex, ey]
      have e1 : x.geom.data 0 / 1000 / 2 - |x.ro.data n| / 1000 = (x.geom.data 0 / 2 - |x.ro.data n|) / 1000 := by ring
      have e2 : x.geom.data 1 / 1000 / 2 - |x.ro.data (n + No)| / 1000 =
        (x.geom.data 1 / 2 - |x.ro.data (n + No)|) / 1000 := by ring
      have e3 : x.geom.data 1 / 1000 / 2 + |x.ro.data (n + No)| / 1000 =
        (x.geom.data 1 / 2 + |x.ro.data (n + No)|) / 1000 := by ring
      rw [e1, e2, e3]
      rfl

end Real

/-! ### The hypotheses are met -/

theorem exAnaReal_typed : exAnaReal.Typed := ⟨⟨_, _, rfl⟩, ⟨_, _, rfl⟩, ⟨_, _, rfl⟩, ⟨_, _, rfl⟩, ⟨_, _, rfl⟩,
  fun s h => by cases h⟩

theorem exAnaReal_len : trunc (exAnaReal.sPar.data 1) = some ((50 : ℕ) : ℤ) := by
  show trunc ((if 1 = 0 then 1 else 50 : ℝ)) = _
  rw [if_neg (by decide), r_trunc]
  norm_num [truncR]

theorem exAnaReal_doc (fe : FrontEnd) : AnaDoc fe .circ exAnaReal 1 50 0 :=
  ⟨rfl, .inl rfl, .inr rfl, exAnaReal_len, by cases fe <;> decide, .inr (.inl rfl), .inr rfl, ⟨rfl, rfl⟩⟩

-- `circ_sir` on the axis: one answer, 50 samples of one point, with sample 4 as stated
example (hw : ℕ) : ∃ h : ℕ → ℕ → ℝ, (∀ o, AnaSees false .octave .circ exAnaReal hw none o ↔
    o = .matrix false none 50 1 fun i n => if i < 50 ∧ n < 1 then h i n else 0) ∧
    h 4 0 = 1 * 1500 * circleFraction (disc (10 / 1000)) 0 0
      (Real.sqrt ((1500 * (4 / 1000000)) ^ 2 - (5 / 1000) ^ 2)) := by
  obtain ⟨h, g, v⟩ := C89_circ_sir false .octave (.inr rfl) exAnaReal exAnaReal_typed 1 50 0 (exAnaReal_doc _)
    (by decide) (by simp [exAnaReal]) hw none
  refine ⟨h, fun o => ?_, ?_⟩
  · rw [g o]
    unfold anaAnswer
    rw [if_neg not_badEnv_unset]
    simp
  · have := v 0 (by decide) 4 (by decide) (10 / 1000) 1 1500 (4 / 1000000) 0 0 (5 / 1000) (by norm_num [exAnaReal])
      (by norm_num [exAnaReal]) (by norm_num [exAnaReal]) (by norm_num [exAnaReal, AnaArgs.time, Arg.size])
      (by norm_num [exAnaReal, AnaArgs.px]) (by norm_num [exAnaReal, AnaArgs.py])
      (by norm_num [exAnaReal, AnaArgs.pz]) (by norm_num) (by rintro ⟨_, h⟩; norm_num at h)
    rw [if_neg (by norm_num)] at this
    exact this

-- `scirc_sir` with 8 intervals and an unusable variable: MATLAB stops with an exception, Octave answers
example (hw : ℕ) (env : Option String) (he : BadEnv env) (d : AnaDoc .octave .scirc
      { exAnaReal with sixth := some ⟨⟨[1, 1], fun _ => 8⟩, .other⟩ } 1 50 8) :
    ∃ h : ℕ → ℕ → ℝ, AnaSees false .octave .scirc { exAnaReal with sixth := some ⟨⟨[1, 1], fun _ => 8⟩, .other⟩ } hw env
      (.matrix false none 50 1 fun i n => if i < 50 ∧ n < 1 then h i n else 0) := by
  obtain ⟨h, g, _⟩ := C89_scirc_sir false .octave (.inr rfl) _
    ⟨⟨_, _, rfl⟩, ⟨_, _, rfl⟩, ⟨_, _, rfl⟩, ⟨_, _, rfl⟩, ⟨_, _, rfl⟩, fun s h => by cases h; exact ⟨_, _, rfl⟩⟩ 1 50 8 d
    (by decide) (by simp [exAnaReal]) (by simp [exAnaReal]) (by simp [exAnaReal]) hw env
  refine ⟨h, (g _).2 ?_⟩
  unfold anaAnswer
  rw [if_neg (by simp)]
  simp
example : AnaDoc .octave .scirc { exAnaReal with sixth := some ⟨⟨[1, 1], fun _ => 8⟩, .other⟩ } 1 50 8 :=
  ⟨rfl, .inl rfl, .inr rfl, exAnaReal_len, by decide, .inr (.inl rfl), .inr rfl,
    ⟨_, rfl, rfl, by rw [r_trunc]; norm_num [truncR], by decide, by decide⟩⟩

-- `rect_sir`, a 10 mm by 20 mm rectangle
noncomputable def exRectReal : AnaArgs ℝ := { exAnaReal with geom := ⟨[1, 2], fun i => if i = 0 then 10 else 20⟩ }

example (hw : ℕ) : ∃ h : ℕ → ℕ → ℝ, (∀ o, AnaSees false .matlab .rect exRectReal hw none o ↔
    o = .matrix false none 50 1 fun i n => if i < 50 ∧ n < 1 then h i n else 0) := by
  have d : AnaDoc .matlab .rect exRectReal 1 50 0 :=
    ⟨rfl, .inr rfl, .inr rfl, exAnaReal_len, by decide, .inr (.inl rfl), .inr rfl, ⟨rfl, fun _ s h => by cases h⟩⟩
  obtain ⟨h, g, v⟩ := C89_rect_sir false .matlab (.inl rfl) exRectReal
    ⟨⟨_, _, rfl⟩, ⟨_, _, rfl⟩, ⟨_, _, rfl⟩, ⟨_, _, rfl⟩, ⟨_, _, rfl⟩, fun s h => by cases h⟩ 1 50 0 d
    (fun g => by cases g.1) (by decide) (by simp [exRectReal]) (by simp [exRectReal])
    (by simp [exRectReal, exAnaReal]) hw none
  refine ⟨h, fun o => ?_⟩
  rw [g o]
  unfold anaAnswer
  rw [if_neg not_badEnv_unset]
  simp

-- refused: three sampling parameters
example (o : Seen ℝ) : AnaSees false .octave .circ { exAnaReal with sPar := ⟨[1, 3], fun _ => 1⟩ } 8 none o ↔
    o = .refused true :=
  C89_ana_refused false .octave (.inr rfl) .circ _
    ⟨⟨_, _, rfl⟩, ⟨_, _, rfl⟩, ⟨_, _, rfl⟩, ⟨_, _, rfl⟩, ⟨_, _, rfl⟩, fun s h => by cases h⟩
    ⟨1, by simp only; rw [r_trunc]; norm_num [truncR], by decide⟩ (fun h => by cases h) (by
      rintro ⟨_, _, _, d⟩
      rcases d.sPar with h | h <;> simp at h) 8 none o

-- an empty delay
example (o : Seen ℝ) : AnaSees false .octave .circ { exAnaReal with delay := ⟨[0, 0], fun _ => 0⟩ } 8 none o ↔
    o = .undefined := by
  have h := C89_ana_empty_delay_violated false .octave (.inr rfl) .circ
    { exAnaReal with delay := ⟨[0, 0], fun _ => 0⟩ }
    ⟨⟨_, _, rfl⟩, ⟨_, _, rfl⟩, ⟨_, _, rfl⟩, ⟨_, _, rfl⟩, ⟨_, _, rfl⟩, fun s h => by cases h⟩ 1 50 0
    ⟨rfl, .inl rfl, .inr rfl, exAnaReal_len, by decide, .inl rfl, .inr rfl, ⟨rfl, rfl⟩⟩
    (fun g => by cases g.1) rfl (by decide) 8 none o
  rwa [if_neg (fun h => not_badEnv_unset h.1)] at h

end Dream
