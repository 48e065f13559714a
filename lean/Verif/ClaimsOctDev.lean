import Verif.OctDev
import Verif.ClaimsArgs
import Verif.ClaimsThreads
import Mathlib.Tactic.NormNum

/-
C71: the compute device option of Octave's dreamrect and dreamcirc.
-/

namespace Dream
open Arith

variable {F : Type} [Arith F]

/-- The CPU call whose response the GPU computes: no attenuation, `delay[0]` for every point, error
level ignored. -/
def SirArgs.flat (x : SirArgs F) : SirArgs F :=
  { x with
    delay := ⟨[1, 1], fun _ => x.delay.data 0⟩
    mPar := ⟨x.mPar.shape, fun i => if i = 2 then lit 0 else x.mPar.data i⟩
    err := some (.text "ignore") }

/-- Sizes fit the `int` arithmetic of the host code. -/
def IntSizes (No nt : Nat) : Prop := No * 3 < 2147483648 ∧ nt < 2147483648 ∧ nt * No < 2147483648

/-- The launch meant by the arguments. -/
def SirArgs.launch (x : SirArgs F) (kind : SirKind) (No nt : Nat) : SirCall F :=
  { k := match kind with
      | .rect => .rect (lit 1) (x.geom.data 0) (x.geom.data 1)
      | _ => .circ (lit 1) (x.geom.data 0)
    p := { dx := x.sPar.data 0, dy := x.sPar.data 1, dt := x.sPar.data 2, delay := lit 0,
           v := x.mPar.data 0, cp := x.mPar.data 1 }
    att := none
    nt := nt
    ty := .signed
    level := .none
    No := No
    Ro := x.ro.buf
    delayType := .single
    delay := ⟨1, fun _ => x.delay.data 0⟩ }

theorem int32_nat {n : Nat} (h : n < 2147483648) : int32 (n : Int) = .ok (n : Int) := by
  unfold int32; rw [if_pos (.inl (by omega))]

theorem octDev_front (L : FFTLib F) (kind : SirKind) (hk : kind = .rect ∨ kind = .circ)
    (x : SirArgs F) (hx : x.Typed .octave) (No nt : Nat) (level : ErrorLevel)
    (h : SirDoc .octave kind x No nt .none level) (b : Bool) :
    frontSir L .octave kind { x with gpu := b } =
      .ok (.call (x.meant L .octave kind No nt .none level)) := by
  have hx' : SirArgs.Typed .octave { x with gpu := b } :=
    ⟨hx.ro, hx.geom, hx.sPar, hx.delay, hx.mPar, hx.focal⟩
  have h' : SirDoc .octave kind { x with gpu := b } No nt .none level :=
    ⟨h.ro, h.geom, h.sPar, h.len, h.fits, h.delay, h.mPar, h.foc, by
      have := h.err
      simp only [errSeen] at this ⊢
      simpa using this⟩
  rw [C35_sir_call L .octave kind _ hx' No nt .none level h']
  rcases hk with rfl | rfl <;> rfl

/-- C71: for documented arguments the device text decides: only the exact text `gpu` selects the
GPU, a seventh argument that is not text is an error, and anything else (also no seventh argument)
runs the CPU version. -/
theorem C71_choice (L : FFTLib F) (kind : SirKind) (hk : kind = .rect ∨ kind = .circ)
    (x : SirArgs F) (hx : x.Typed .octave) (No nt : Nat) (level : ErrorLevel)
    (h : SirDoc .octave kind x No nt .none level) :
    octDev L kind x none = .ok (.cpu (x.meant L .octave kind No nt .none level)) ∧
    (∀ s, s ≠ "gpu" → octDev L kind x (some (.text s)) =
      .ok (.cpu (x.meant L .octave kind No nt .none level))) ∧
    octDev L kind x (some .other) = .ok (.rejected true) ∧
    (IntSizes No nt → 1 ≤ x.delay.size →
      octDev L kind x (some (.text "gpu")) = .ok (.gpu (x.launch kind No nt))) := by
  have hf := octDev_front L kind hk x hx No nt level h
  refine ⟨?_, ?_, ?_, ?_⟩
  · unfold octDev; rw [hf]; rfl
  · intro s hs
    unfold octDev
    rw [hf]
    simp only [Outcome.ok_bind, if_neg hs]
  · unfold octDev; rw [hf]; rfl
  · rintro ⟨i1, i2, i3⟩ hd
    unfold octDev
    rw [hf]
    simp only [Outcome.ok_bind, if_pos]
    unfold launchArgs
    have hr : (x.meant L .octave kind No nt .none level).delay.read 0 = .ok (x.delay.data 0) := by
      show x.delay.buf.read ((0 : Nat) : Int) = _
      rw [Buf.read_nat _ _ hd]
      rfl
    have e1 : (x.meant L .octave kind No nt .none level).No = No := rfl
    have e2 : (x.meant L .octave kind No nt .none level).nt = nt := rfl
    rw [hr, e1, e2, Outcome.ok_bind, int32_nat (by omega), Outcome.ok_bind, int32_nat i2,
      Outcome.ok_bind, show (No : Int) * 3 = ((No * 3 : Nat) : Int) by push_cast; rfl,
      int32_nat i1, Outcome.ok_bind, show (nt : Int) * No = ((nt * No : Nat) : Int) by push_cast; rfl,
      int32_nat i3, Outcome.ok_bind, Outcome.ok_bind]
    rcases hk with rfl | rfl <;> rfl

/-- C71: the flattened arguments are documented CPU arguments, and their CPU call is the launch
except for the name of the error level. -/
theorem flat_call (L : FFTLib F) (kind : SirKind) (hk : kind = .rect ∨ kind = .circ)
    (x : SirArgs F) (hx : x.Typed .octave) (No nt : Nat) (level : ErrorLevel)
    (h : SirDoc .octave kind x No nt .none level) (h0 : Arith.lt (epsilon : F) (lit 0) = false) :
    frontSir L .octave kind x.flat =
      .ok (.call { x.launch kind No nt with level := .ignore }) := by
  have hx' : SirArgs.Typed .octave x.flat := by
    refine ⟨hx.ro, hx.geom, hx.sPar, ⟨1, 1, rfl⟩, ?_, hx.focal⟩
    exact hx.mPar
  have h' : SirDoc .octave kind x.flat No nt .none .ignore := by
    refine ⟨h.ro, h.geom, h.sPar, h.len, h.fits, .inr (.inl ?_), ?_, h.foc, .inr ⟨"ignore", ?_, .ignore⟩⟩
    · simp [SirArgs.flat, Arg.size]
    · exact h.mPar
    · simp [errSeen, SirArgs.flat]
  rw [C35_sir_call L .octave kind _ hx' No nt .none .ignore h']
  have e : (x.flat.meant L .octave kind No nt .none .ignore) =
      { x.launch kind No nt with level := .ignore } := by
    rcases hk with rfl | rfl <;>
      simp [SirArgs.meant, SirArgs.flat, SirArgs.launch, h0, Arg.size, Arg.buf, FrontEnd.idx]
  rw [e]

theorem launch_gpu (x : SirArgs F) (kind : SirKind) (hk : kind = .rect ∨ kind = .circ) (No nt : Nat)
    (l : ErrorLevel) (hl : l = .ignore ∨ l = .warn ∨ l = .none)
    (hu : lit 1 *. x.mPar.data 0 = x.mPar.data 0) :
    SirCall.ForGpu { x.launch kind No nt with level := l } where
  kern := by
    rcases hk with rfl | rfl
    · exact .inl ⟨_, _, rfl⟩
    · exact .inr ⟨_, rfl⟩
  att := rfl
  delay := rfl
  level := hl
  unit := hu

/-- C71: what the GPU returns.  Let the arguments be documented, the sizes fit `int` and the number of
points be a multiple of 64.  Whatever the device buffer held and in whatever order the work-items ran,
the matrix the user gets is the one every complete run of the *CPU* version returns for the flattened
arguments: zero attenuation, the first delay for all points, errors ignored.  The returned error code
is always 0. -/
theorem C71_as_flat_cpu (L : FFTLib F) (kind : SirKind) (hk : kind = .rect ∨ kind = .circ)
    (x : SirArgs F) (hx : x.Typed .octave) (No nt : Nat) (level : ErrorLevel)
    (h : SirDoc .octave kind x No nt .none level) (hi : IntSizes No nt) (hd : 1 ≤ x.delay.size)
    (h0 : Arith.lt (epsilon : F) (lit 0) = false) (hu : lit 1 *. x.mPar.data 0 = x.mPar.data 0)
    (h64 : No % 64 = 0) :
    ∃ c g, octDev L kind x (some (.text "gpu")) = .ok (.gpu g) ∧
      octDev L kind x.flat none = .ok (.cpu c) ∧
      ∀ fuel H err, GpuAnswer g fuel H err →
        err = .none ∧
        ∀ (m : Buf F), m.size = No * nt → (∀ i, m.data i = lit 0) →
          ∀ nth, 1 ≤ nth → ∀ as, Act.abort ∉ as → ∀ s', c.Run nth m as s' →
            ∀ n, n < No → ∀ j, j < nt → H (nt * n + j) = s'.mem.data (n * nt + j) := by
  refine ⟨{ x.launch kind No nt with level := .ignore }, x.launch kind No nt,
    (C71_choice L kind hk x hx No nt level h).2.2.2 hi hd, ?_, ?_⟩
  · unfold octDev
    rw [show ({ x.flat with gpu := (none : Option StrArg).isSome } : SirArgs F) =
      ({ x with gpu := false } : SirArgs F).flat from rfl]
    rw [flat_call L kind hk { x with gpu := false }
      ⟨hx.ro, hx.geom, hx.sPar, hx.delay, hx.mPar, hx.focal⟩ No nt level ?_ h0]
    · rfl
    · exact ⟨h.ro, h.geom, h.sPar, h.len, h.fits, h.delay, h.mPar, h.foc, by
        have := h.err
        simp only [errSeen] at this ⊢
        simpa using this⟩
  · rintro fuel H err ⟨⟨fresh, hl⟩, he⟩
    refine ⟨he, fun m hm hz nth h1 as hab s' hr n hn j hj => ?_⟩
    have hro : x.ro.buf.size = 3 * No := by
      show x.ro.size = _
      rw [Arg.size_eq h.ro, Nat.mul_comm]
    have hs : SirCall.Sized { x.launch kind No nt with level := .ignore } m := ⟨hro, rfl, hm⟩
    have hlau : Launched nt No (SirCall.clItems { x.launch kind No nt with level := .ignore } fuel)
        fresh H := hl
    exact C40_image _ m hs hz (launch_gpu x kind hk No nt .ignore (.inl rfl) hu) rfl h64 fuel fresh H
      hlau nth h1 as hab s' hr n hn j hj

/-- C71: the GPU path looks neither at the attenuation, nor at the error level, nor at any delay after
the first: two documented argument lists that differ only there lead to the same launch. -/
theorem C71_ignored (L : FFTLib F) (kind : SirKind) (hk : kind = .rect ∨ kind = .circ)
    (x y : SirArgs F) (hx : x.Typed .octave) (hy : y.Typed .octave) (No nt : Nat)
    (l l' : ErrorLevel) (h : SirDoc .octave kind x No nt .none l)
    (h' : SirDoc .octave kind y No nt .none l') (hi : IntSizes No nt)
    (hd : 1 ≤ x.delay.size) (hd' : 1 ≤ y.delay.size)
    (e1 : y.ro = x.ro) (e2 : y.geom = x.geom) (e3 : y.sPar = x.sPar)
    (e4 : y.delay.data 0 = x.delay.data 0) (e5 : y.mPar.data 0 = x.mPar.data 0)
    (e6 : y.mPar.data 1 = x.mPar.data 1) :
    octDev L kind y (some (.text "gpu")) = octDev L kind x (some (.text "gpu")) := by
  rw [(C71_choice L kind hk x hx No nt l h).2.2.2 hi hd,
    (C71_choice L kind hk y hy No nt l' h').2.2.2 hi hd']
  simp only [SirArgs.launch, e1, e2, e3, e4, e5, e6]

/-- C71: on the CPU with error level `stop` a point whose response does not fit makes every complete
run end in an error; on the GPU the same arguments return a matrix and the error code 0. -/
theorem C71_oob_silent (L : FFTLib F) (kind : SirKind) (hk : kind = .rect ∨ kind = .circ)
    (x : SirArgs F) (hx : x.Typed .octave) (No nt : Nat)
    (h : SirDoc .octave kind x No nt .none .stop) (hi : IntSizes No nt)
    (hdl : x.delay.size = 1 ∨ x.delay.size = No) (hd : 1 ≤ x.delay.size) :
    ∃ c g, octDev L kind x none = .ok (.cpu c) ∧
      octDev L kind x (some (.text "gpu")) = .ok (.gpu g) ∧
      (∀ m : Buf F, m.size = No * nt → c.Defined m →
        (∃ n, n < No ∧ c.PointErr m n .outOfBounds) →
        ∀ nth, 1 ≤ nth → ∀ as, Act.abort ∉ as → ∀ s', c.Run nth m as s' →
          wrapper s'.running (returned nth s') = .errOutOfBounds ∨
          wrapper s'.running (returned nth s') = .errCtrlC) ∧
      ∀ fuel H err, GpuAnswer g fuel H err → err = .none := by
  refine ⟨_, _, (C71_choice L kind hk x hx No nt .stop h).1,
    (C71_choice L kind hk x hx No nt .stop h).2.2.2 hi hd, ?_, fun _ _ _ g => g.2⟩
  intro m hm hdef hp nth h1 as hab s' hr
  have hro : x.ro.buf.size = 3 * No := by
    show x.ro.size = _
    rw [Arg.size_eq h.ro, Nat.mul_comm]
  have hs : (x.meant L .octave kind No nt .none .stop).Sized m := by
    refine ⟨hro, ?_, hm⟩
    show x.delay.size = match (if x.delay.size = 1 then DelayType.single else .multiple) with
      | .single => 1 | .multiple => No
    by_cases h1 : x.delay.size = 1
    · rw [if_pos h1]; exact h1
    · rw [if_neg h1]; exact hdl.resolve_left h1
  have hp' : ∃ n, n < (x.meant L .octave kind No nt .none .stop).No ∧
      (x.meant L .octave kind No nt .none .stop).PointErr m n .outOfBounds := hp
  rw [C42_user_outcome hs hdef nth h1 as hab s' hr, if_pos hp']
  split
  · exact .inl rfl
  · exact .inr rfl

/-- C71: when the number of points is not a multiple of 64 nothing is computed and the user gets the
old contents of the device memory: every matrix is a possible answer. -/
theorem C71_unspecified (x : SirArgs F) (kind : SirKind) (No nt fuel : Nat) (h64 : No % 64 ≠ 0)
    (H : Nat → F) : GpuAnswer (x.launch kind No nt) fuel H .none :=
  ⟨(C40_other_sizes (x.launch kind No nt) fuel h64 H).1, rfl⟩

/-- C71: an empty delay passes the checks; `delay[0]` is then outside it. -/
theorem C71_empty_delay (L : FFTLib F) (kind : SirKind) (hk : kind = .rect ∨ kind = .circ)
    (x : SirArgs F) (hx : x.Typed .octave) (No nt : Nat) (level : ErrorLevel)
    (h : SirDoc .octave kind x No nt .none level) (hd : x.delay.size = 0) :
    octDev L kind x (some (.text "gpu")) = .ub .oob := by
  unfold octDev
  rw [octDev_front L kind hk x hx No nt level h]
  simp only [Outcome.ok_bind, if_pos]
  have hr : (x.meant L .octave kind No nt .none level).delay.read 0 = .ub .oob := by
    show x.delay.buf.read 0 = _
    unfold Buf.read
    rw [if_neg]
    show ¬ ((0 : Int) ≤ 0 ∧ (0 : Int) < (x.delay.size : Int))
    omega
  unfold launchArgs
  rw [hr]
  rfl

/-- C71: a response matrix with 2^31 or more entries overflows the `int` product in the host code. -/
theorem C71_int_limit (L : FFTLib F) (kind : SirKind) (hk : kind = .rect ∨ kind = .circ)
    (x : SirArgs F) (hx : x.Typed .octave) (No nt : Nat) (level : ErrorLevel)
    (h : SirDoc .octave kind x No nt .none level) (hd : 1 ≤ x.delay.size)
    (hbig : 2147483648 ≤ nt * No) :
    octDev L kind x (some (.text "gpu")) = .ub .cast := by
  unfold octDev
  rw [octDev_front L kind hk x hx No nt level h]
  simp only [Outcome.ok_bind, if_pos]
  have hr : (x.meant L .octave kind No nt .none level).delay.read 0 = .ok (x.delay.data 0) := by
    show x.delay.buf.read ((0 : Nat) : Int) = _
    rw [Buf.read_nat _ _ hd]
    rfl
  have e1 : (x.meant L .octave kind No nt .none level).No = No := rfl
  have e2 : (x.meant L .octave kind No nt .none level).nt = nt := rfl
  have hlast : int32 ((nt : Int) * No) = .ub .cast := by
    rw [show (nt : Int) * No = ((nt * No : Nat) : Int) by push_cast; rfl]
    unfold int32
    rw [if_neg]
    omega
  unfold launchArgs
  rw [hr, e1, e2, Outcome.ok_bind]
  rcases int32_cases (No : Int) with g | g <;> rw [g]
  · rw [Outcome.ok_bind]
    rcases int32_cases (nt : Int) with g | g <;> rw [g]
    · rw [Outcome.ok_bind]
      rcases int32_cases ((No : Int) * 3) with g | g <;> rw [g]
      · rw [Outcome.ok_bind, hlast]; rfl
      · rfl
    · rfl
  · rfl

/-! ### The hypotheses can be met -/

section
attribute [local instance] toyArith

/-- `No` points at distance 5, one delay each, attenuation given, error level `stop`. -/
def devArgs (No d : Nat) : SirArgs Int where
  ro := ⟨[No, 3], fun i => if i < 2 * No then 0 else 5⟩
  geom := ⟨[1, 2], fun _ => 4⟩
  sPar := ⟨[1, 4], fun i => [2, 2, 1, 12].getD i 0⟩
  delay := ⟨[1, d], fun i => i⟩
  mPar := ⟨[1, 3], fun i => [100, 1000, 1].getD i 0⟩
  foc := .other
  focal := ⟨[1, 1], fun _ => 0⟩
  err := some (.text "stop")
  gpu := false

theorem devArgs_typed (No d : Nat) : (devArgs No d).Typed .octave :=
  ⟨⟨_, _, rfl⟩, ⟨_, _, rfl⟩, ⟨_, _, rfl⟩, ⟨_, _, rfl⟩, ⟨_, _, rfl⟩, ⟨_, _, rfl⟩⟩

theorem devArgs_doc (No d : Nat) (hd : d ≤ 1 ∨ d = No) :
    SirDoc .octave .rect (devArgs No d) No 12 .none .stop where
  ro := rfl
  geom := Or.inr rfl
  sPar := Or.inr rfl
  len := rfl
  fits := by decide
  delay := by
    have : (devArgs No d).delay.size = d := by simp [devArgs, Arg.size]
    omega
  mPar := Or.inr rfl
  foc := by rw [if_neg (by decide)]
  err := by
    refine Or.inr ⟨"stop", ?_, .stop⟩
    simp [errSeen, devArgs]

theorem toy_eps : Arith.lt (epsilon : Int) (lit 0) = false := by
  have e : ((1 : Rat) / 2 ^ 52) = mkRat 1 (2 ^ 52) := by rw [Rat.mkRat_eq_div]; norm_num
  have h : ((1 : Rat) / 2 ^ 52).num / ((1 / 2 ^ 52 : Rat).den : Int) = 0 := by rw [e]; decide
  have h0 : (epsilon : Int) = 0 := h
  rw [h0]
  rfl

/-- The response the GPU computes for 64 points with 64 delays is the CPU response with the first
delay and no attenuation. -/
example (L : FFTLib Int) := C71_as_flat_cpu L .rect (.inl rfl) (devArgs 64 64) (devArgs_typed 64 64) 64 12
  .stop (devArgs_doc 64 64 (.inr rfl)) ⟨by decide, by decide, by decide⟩ (by decide) toy_eps rfl rfl

/-- One delay and 64 delays: the same launch. -/
example (L : FFTLib Int) : octDev L .rect (devArgs 64 64) (some (.text "gpu")) =
    octDev L .rect (devArgs 64 1) (some (.text "gpu")) :=
  C71_ignored L .rect (.inl rfl) _ _ (devArgs_typed 64 1) (devArgs_typed 64 64) 64 12 .stop .stop
    (devArgs_doc 64 1 (.inl (by decide))) (devArgs_doc 64 64 (.inr rfl)) ⟨by decide, by decide, by decide⟩
    (by decide) (by decide) rfl rfl rfl rfl rfl rfl

example (L : FFTLib Int) : octDev L .rect (devArgs 64 0) (some (.text "gpu")) = .ub .oob :=
  C71_empty_delay L .rect (.inl rfl) _ (devArgs_typed 64 0) 64 12 .stop
    (devArgs_doc 64 0 (.inl (by decide))) rfl

/-- 200 million points. -/
example (L : FFTLib Int) : octDev L .rect (devArgs 200000000 1) (some (.text "gpu")) = .ub .cast :=
  C71_int_limit L .rect (.inl rfl) _ (devArgs_typed _ 1) _ 12 .stop
    (devArgs_doc _ 1 (.inl (by decide))) (by decide) (by decide)

/-- With the text `GPU` the CPU version runs. -/
example (L : FFTLib Int) : ∃ c, octDev L .rect (devArgs 64 1) (some (.text "GPU")) = .ok (.cpu c) :=
  ⟨_, (C71_choice L .rect (.inl rfl) _ (devArgs_typed 64 1) 64 12 .stop
    (devArgs_doc 64 1 (.inl (by decide)))).2.1 "GPU" (by decide)⟩

end

end Dream
