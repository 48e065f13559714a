import Verif.ApodWin
import Verif.ClaimsAnaFront
import Verif.ClaimsArgsArr
import Verif.ClaimsArrReal
import Verif.Toy

/-
C68: `dream_apodwin`.
-/

namespace Dream
open Arith

section General
variable {F : Type} [Arith F]

/-! ### Specification -/

/-- The arguments are accepted, with `num` samples of the window `am` (`none`: no apodization): the
first entry of the second argument is `num`, the name is documented, the parameter is a scalar, and
user defined weights are `num` (not enforced in MATLAB). -/
structure ApodWinArgs (fe : FrontEnd) (met : StrArg) (apod par : Arg F) (num : Nat)
    (am : Option ApodMet) : Prop where
  some_entry : 1 ≤ apod.size
  len : trunc (apod.data 0) = some (num : Int)
  fits : fe.idx.fits num = true
  name : ∃ s, met = .text s ∧ ApodName s am
  weights : am = some .ud → apod.size = num ∨ fe = .matlab
  par : par.shape = [1, 1]

/-- Sample `n` of the result: the user's weights, zeros for user defined weights of the wrong number
(MATLAB), a window of the distance of the sample to the centre, or what the output held before. -/
def winSample (fe : FrontEnd) (junk : Nat → F) (apod par : Arg F) (num : Nat) (am : Option ApodMet)
    (n : Nat) : F :=
  match am with
  | none => if fe = .matlab then lit 0 else junk n
  | some .ud => if apod.size = num then apod.data n else lit 0
  | some met => apodFormula met (lit 0)
      (sqrt (apodPos num n *. apodPos num n +. lit 0 *. lit 0)) (lit 1) (par.data 0)

theorem apodOut_size (fe : FrontEnd) (num : Nat) (junk : Nat → F) : (apodOut fe num junk).size = num := by
  cases fe <;> rfl

theorem apodWin_eq (fe : FrontEnd) (hfe : fe.mo) (junk : Nat → F) {apod par : Arg F} (num : Nat)
    (am : Option ApodMet) :
    ∃ h, apodWin (apodOf fe num apod par am) num (apodOut fe num junk) = .ok h ∧ h.size = num ∧
      ∀ n, n < num → h.data n = winSample fe junk apod par num am n := by
  have hl : fe.looksAtWindow = true := by rcases hfe with rfl | rfl <;> rfl
  unfold apodWin
  cases am with
  | none =>
    refine ⟨_, if_neg (by simp [apodOf]), apodOut_size fe num junk, fun n hn => ?_⟩
    rcases hfe with rfl | rfl <;> rfl
  | some met =>
    rw [if_pos (by simp [apodOf])]
    have key : ∀ n, n < num → apodization (apodOf fe num apod par (some met)).met n
        (apodOf fe num apod par (some met)).vec (apodPos num n) (lit 0) (lit 1)
        (apodOf fe num apod par (some met)).par = .ok (winSample fe junk apod par num (some met) n) := by
      intro n hn
      by_cases hu : met = .ud
      · subst hu
        simp only [apodOf, Option.getD_some, apodization, winSample]
        by_cases hs : apod.size = num
        · rw [if_pos ⟨trivial, hs⟩, if_pos hs, Buf.read_nat _ _ (by simpa [vecOf] using hn)]
          simp [vecOf, hn]
        · rw [if_neg (by simp [hs]), if_neg hs, Buf.read_nat _ _ (by simpa [zeroVec] using hn)]
          rfl
      · have hp : (apodOf fe num apod par (some met)).par = par.data 0 := by simp [apodOf, hl, hu]
        rw [hp]
        simp only [apodOf, Option.getD_some]
        cases met <;> first | rfl | exact absurd rfl hu
    obtain ⟨h, e1, e2, e3⟩ := forO_map
      (fun n (h : Buf F) =>
        (apodization (apodOf fe num apod par (some met)).met n (apodOf fe num apod par (some met)).vec
          (apodPos num n) (lit 0) (lit 1) (apodOf fe num apod par (some met)).par).bind fun w =>
          h.write (n : Int) w)
      (fun n _ => winSample fe junk apod par num (some met) n) num num 0 (by omega)
      (apodOut fe num junk) (apodOut_size fe num junk)
      (by intro i _ hi b _; simp only [key i (by omega), Outcome.ok_bind])
    exact ⟨h, e1, e2, fun n hn => by rw [e3, if_pos (by omega)]⟩

/-- C68: whatever the arguments, `dream_apodwin` returns the samples meant by accepted arguments; other
calls are refused, and it is undefined exactly if the second argument is empty or its first entry is no
number of the index type. -/
theorem C68_outcomes (fe : FrontEnd) (hfe : fe.mo) (junk : Nat → F) (met : StrArg) (apod par : Arg F)
    (ha : apod.IsMatrix) (hp : par.IsMatrix) :
    (∀ num am, ApodWinArgs fe met apod par num am →
      ∃ h, dreamApodWin fe junk met apod par = .ok (.call h) ∧ h.size = num ∧
        ∀ n, n < num → h.data n = winSample fe junk apod par num am n) ∧
    ((¬ ∃ num am, ApodWinArgs fe met apod par num am) → 1 ≤ apod.size → Casts fe (apod.data 0) →
      ∃ said, dreamApodWin fe junk met apod par = .ok (.rejected said)) ∧
    (apod.size = 0 → dreamApodWin fe junk met apod par = .ub .oob) ∧
    (1 ≤ apod.size → ¬ Casts fe (apod.data 0) → dreamApodWin fe junk met apod par = .ub .cast) := by
  have hl : fe.looksAtWindow = true := by rcases hfe with rfl | rfl <;> rfl
  have hr : 1 ≤ apod.size → apod.buf.read 0 = .ok (apod.data 0) := fun h =>
    Arg.read_eq rfl (i := 0) (by omega)
  refine ⟨?_, ?_, ?_, ?_⟩
  · intro num am h
    unfold dreamApodWin
    rw [hr h.some_entry, Outcome.ok_bind, castIdx_good h.len h.fits, Outcome.ok_bind]
    unfold allocOut
    rw [if_neg (by omega), Int.toNat_natCast]
    beta_reduce
    rw [parseApod_next fe met (ha.vecArg hfe) num am ⟨h.name, h.weights, fun _ => h.par⟩]
    obtain ⟨b, e1, e2, e3⟩ := apodWin_eq fe hfe junk (apod := apod) (par := par) num am
    exact ⟨b, by rw [e1]; rfl, e2, e3⟩
  · rintro h h1 ⟨t, g1, g2⟩
    unfold dreamApodWin
    rw [hr h1, Outcome.ok_bind, castIdx_good g1 g2, Outcome.ok_bind]
    unfold allocOut
    by_cases ht : t < 0
    · rw [if_pos ht]; exact ⟨_, rfl⟩
    · rw [if_neg ht]
      refine parseApod_no_call fe met (ha.vecArg hfe) (fun _ => hp) t.toNat ?_ _
      rintro ⟨am, k1, k2, k3⟩
      have e : ((t.toNat : Nat) : Int) = t := by omega
      exact h ⟨t.toNat, am, h1, by rw [e]; exact g1, by rw [e]; exact g2, k1, k2, k3 hl⟩
  · intro h
    unfold dreamApodWin
    have : apod.buf.read 0 = .ub .oob := by simp [Buf.read, Arg.buf, h]
    rw [this]; rfl
  · intro h h2
    unfold dreamApodWin
    rw [hr h, Outcome.ok_bind, castIdx_bad h2]; rfl

/-- C68: without apodization ('off') the result is not a window of ones: MATLAB returns zeros, Octave
whatever the memory of the result held. -/
theorem C68_off (junk : Nat → F) (apod par : Arg F) (ha : apod.IsMatrix) (hp : par.shape = [1, 1])
    (num : Nat) (h1 : 1 ≤ apod.size) (hn : trunc (apod.data 0) = some (num : Int)) :
    (IdxTy.unsigned.fits num = true →
      ∃ h, dreamApodWin .matlab junk (.text "off") apod par = .ok (.call h) ∧ h.size = num ∧
        ∀ n, n < num → h.data n = lit 0) ∧
    (IdxTy.signed.fits num = true →
      ∃ h, dreamApodWin .octave junk (.text "off") apod par = .ok (.call h) ∧ h.size = num ∧
        ∀ n, n < num → h.data n = junk n) := by
  have nm : ApodName "off" none := (C35_apod_names _ _).1 (by simp [lookup, apodTab])
  constructor
  · intro hf
    exact (C68_outcomes .matlab (.inl rfl) junk (.text "off") apod par ha ⟨1, 1, hp⟩).1 num none
      ⟨h1, hn, hf, ⟨_, rfl, nm⟩, fun g => by simp at g, hp⟩
  · intro hf
    exact (C68_outcomes .octave (.inr rfl) junk (.text "off") apod par ha ⟨1, 1, hp⟩).1 num none
      ⟨h1, hn, hf, ⟨_, rfl, nm⟩, fun g => by simp at g, hp⟩

/-- C68: user defined weights come back only if the integral part of the first weight is their number.
Otherwise Octave refuses them without a message and MATLAB returns zeros, as many as the integral
part of the first weight says. -/
theorem C68_user_weights (junk : Nat → F) (apod par : Arg F) (ha : apod.IsMatrix)
    (hp : par.shape = [1, 1]) (num : Nat) (h1 : 1 ≤ apod.size)
    (hn : trunc (apod.data 0) = some (num : Int)) (hf : IdxTy.signed.fits num = true) :
    (apod.size = num → ∀ fe : FrontEnd, fe.mo →
      ∃ h, dreamApodWin fe junk (.text "ud") apod par = .ok (.call h) ∧ h.size = num ∧
        ∀ n, n < num → h.data n = apod.data n) ∧
    (apod.size ≠ num →
      dreamApodWin .octave junk (.text "ud") apod par = .ok (.rejected false) ∧
      ∃ h, dreamApodWin .matlab junk (.text "ud") apod par = .ok (.call h) ∧ h.size = num ∧
        ∀ n, n < num → h.data n = lit 0) := by
  have nm : ApodName "ud" (some .ud) := .ud
  have hf' : IdxTy.unsigned.fits num = true := by
    revert hf; simp [IdxTy.fits]; omega
  have ff : ∀ fe : FrontEnd, fe.mo → fe.idx.fits num = true := by
    rintro fe (rfl | rfl)
    · exact hf'
    · exact hf
  have res : ∀ fe : FrontEnd, fe.mo → (apod.size = num ∨ fe = .matlab) →
      ∃ h, dreamApodWin fe junk (.text "ud") apod par = .ok (.call h) ∧ h.size = num ∧
        ∀ n, n < num → h.data n = winSample fe junk apod par num (some .ud) n := by
    intro fe hfe hw
    exact (C68_outcomes fe hfe junk (.text "ud") apod par ha ⟨1, 1, hp⟩).1 num (some .ud)
      ⟨h1, hn, ff fe hfe, ⟨_, rfl, nm⟩, fun _ => hw, hp⟩
  refine ⟨fun hs fe hfe => ?_, fun hs => ⟨?_, ?_⟩⟩
  · obtain ⟨h, e1, e2, e3⟩ := res fe hfe (.inl hs)
    exact ⟨h, e1, e2, fun n hn => by rw [e3 n hn]; simp [winSample, hs]⟩
  · unfold dreamApodWin
    rw [show apod.buf.read 0 = .ok (apod.data 0) from Arg.read_eq rfl (i := 0) (by omega), Outcome.ok_bind,
      castIdx_good (fe := .octave) hn hf, Outcome.ok_bind]
    unfold allocOut
    rw [if_neg (by omega), Int.toNat_natCast]
    have hc := Arg.count_eq (ha.vecArg (.inr rfl : FrontEnd.octave.mo))
    simp [parseApod, udWeights, getString, lookup, apodTab, setApod, hc, hs, Arg.dim_zero hp,
      Arg.dim_one hp, PRes.next]
  · obtain ⟨h, e1, e2, e3⟩ := res .matlab (.inl rfl) (.inr rfl)
    exact ⟨h, e1, e2, fun n hn => by rw [e3 n hn]; simp [winSample, hs]⟩

end General

/-! ### The window, exact arithmetic -/

theorem apodPos_real (num n : ℕ) : (apodPos num n : ℝ) = 1 - 2 * n / num := by
  simp only [apodPos, r_lit, r_mul, r_sub, r_div, r_ofInt]
  push_cast
  ring

/-- C68: sample `n` of a window of `num` samples is the documented window at the relative distance
`|1 - 2n/num|` from the centre. -/
theorem C68_window (fe : FrontEnd) (hfe : fe.mo) (junk : ℕ → ℝ) (met : StrArg) (apod par : Arg ℝ)
    (ha : apod.IsMatrix) (hp : par.IsMatrix) (num : ℕ) (w : ApodMet) (hw : w ≠ .ud)
    (h : ApodWinArgs fe met apod par num (some w)) :
    ∃ b, dreamApodWin fe junk met apod par = .ok (.call b) ∧ b.size = num ∧
      ∀ n, n < num → b.data n = windowSpec w (par.data 0) |1 - 2 * (n : ℝ) / num| := by
  obtain ⟨b, e1, e2, e3⟩ := (C68_outcomes fe hfe junk met apod par ha hp).1 num (some w) h
  refine ⟨b, e1, e2, fun n hn => ?_⟩
  have key := (C19_windows w 0 (Real.sqrt (apodPos num n * apodPos num n + 0 * 0)) 1 (par.data 0)
    (Real.sqrt_nonneg _) one_pos).1 hw
  have hs : Real.sqrt ((apodPos num n : ℝ) * apodPos num n + 0 * 0) = |1 - 2 * (n : ℝ) / num| := by
    rw [mul_zero, add_zero, Real.sqrt_mul_self_eq_abs, apodPos_real]
  rw [hs, div_one] at key
  rw [e3 n hn, ← key, ← hs]
  unfold winSample
  cases w <;> first | exact absurd rfl hw | simp [r_lit]

/-- C68: the window is periodic, not symmetric: samples `n` and `num - n` agree, the first sample has
the value at the edge, and for an even number the sample `num / 2` has the value at the centre. -/
theorem C68_shape (fe : FrontEnd) (hfe : fe.mo) (junk : ℕ → ℝ) (met : StrArg) (apod par : Arg ℝ)
    (ha : apod.IsMatrix) (hp : par.IsMatrix) (num : ℕ) (w : ApodMet) (hw : w ≠ .ud)
    (h : ApodWinArgs fe met apod par num (some w)) (b : Buf ℝ)
    (hb : dreamApodWin fe junk met apod par = .ok (.call b)) :
    (∀ n, 1 ≤ n → n < num → b.data (num - n) = b.data n) ∧
    (1 ≤ num → b.data 0 = windowSpec w (par.data 0) 1) ∧
    (∀ m, 1 ≤ m → num = 2 * m → b.data m = windowSpec w (par.data 0) 0) ∧
    (w = .triangle → 2 ≤ num → b.data (num - 1) ≠ b.data 0) := by
  obtain ⟨b', e1, e2, e3⟩ := C68_window fe hfe junk met apod par ha hp num w hw h
  have : b = b' := by rw [hb] at e1; simpa using e1
  subst this
  have zero : 1 ≤ num → b.data 0 = windowSpec w (par.data 0) 1 := by
    intro h1
    rw [e3 0 (by omega)]
    simp
  refine ⟨fun n h1 h2 => ?_, zero, fun m h1 h2 => ?_, fun h1 h2 => ?_⟩
  · rw [e3 n h2, e3 (num - n) (by omega)]
    congr 1
    have hN : (num : ℝ) ≠ 0 := by exact_mod_cast (by omega : num ≠ 0)
    rw [Nat.cast_sub h2.le, ← abs_neg]
    congr 1
    field_simp
    ring
  · rw [e3 m (by omega)]
    have hm : (m : ℝ) ≠ 0 := by positivity
    congr 1
    rw [h2]
    push_cast
    rw [abs_eq_zero]
    field_simp
    ring
  · rw [zero (by omega), e3 (num - 1) (by omega)]
    subst h1
    have hN : (2 : ℝ) ≤ num := by exact_mod_cast h2
    simp only [windowSpec]
    rw [Nat.cast_sub (by omega), Nat.cast_one]
    have : |1 - 2 * ((num : ℝ) - 1) / num| < 1 := by
      rw [abs_lt]
      constructor
      · have : 2 * ((num : ℝ) - 1) / num < 2 := by
          rw [div_lt_iff₀ (by linarith)]; linarith
        linarith
      · have : 0 < 2 * ((num : ℝ) - 1) / num := by
          apply div_pos <;> linarith
        linarith
    intro g
    linarith

/-- The weights of a line array along x. -/
theorem line_weights (A : ArrPar ℝ) (hA : A.Sized) (hon : A.doApod = true) (w : ApodMet)
    (hmet : A.apodMet = w) (hw : w ≠ .ud) (R : ℝ) (hR : 0 < R)
    (hx : ∀ n, n < A.num → |A.G.data n| ≤ R) (hatt : ∃ n, n < A.num ∧ |A.G.data n| = R)
    (hy : ∀ n, n < A.num → A.G.data (A.num + n) = 0) (cp : ℝ) :
    ∃ d, maxDimArr A.G A.num = .ok d ∧
      ∀ n, n < A.num → ∃ e, A.elem d cp n = .ok e ∧
        e.weight = windowSpec w A.apodPar (|A.G.data n| / R) := by
  obtain ⟨d, hd, d1, ⟨n1, d2, d3⟩, d4, ⟨n2, d5, d6⟩, d7, -⟩ :=
    C20_aperture A.G A.num hA.num (by rw [hA.grid])
  obtain ⟨n3, d8, d9⟩ := hatt
  have ex : d.xmax = R := le_antisymm (d3 ▸ hx n1 d2) (d9 ▸ d1 n3 d8)
  have ey : d.ymax = 0 := by rw [← d6, hy n2 d5, abs_zero]
  have er : d.rmax = R := by
    rw [d7, ex, ey]
    simp [Real.sqrt_sq hR.le]
  refine ⟨d, hd, fun n hn => ⟨_, elem_ok A hA d cp n hn, ?_⟩⟩
  simp only [hon, if_true, er, hmet]
  rw [hy n hn]
  have := (C19_windows w (A.apod.data n) (Real.sqrt (A.G.data n * A.G.data n + 0 * 0)) R A.apodPar
    (Real.sqrt_nonneg _) hR).1 hw
  rw [show Arith.sqrt (A.G.data n *. A.G.data n +. (0 : ℝ) *. 0) =
    Real.sqrt (A.G.data n * A.G.data n + 0 * 0) from rfl, this, mul_zero, add_zero,
    Real.sqrt_mul_self_eq_abs]

/-- C68: "the same method as used in the array functions": the samples are the weights that an array
function gives the elements of a line array at `x = R, R - 2R/num, ..., -R + 2R/num` (`R > 0`), with the
same window and parameter. -/
theorem C68_as_array (fe : FrontEnd) (hfe : fe.mo) (junk : ℕ → ℝ) (met : StrArg) (apod par : Arg ℝ)
    (ha : apod.IsMatrix) (hp : par.IsMatrix) (w : ApodMet) (hw : w ≠ .ud)
    (A : ArrPar ℝ) (hA : A.Sized) (h : ApodWinArgs fe met apod par A.num (some w))
    (hon : A.doApod = true) (hmet : A.apodMet = w) (hpar : A.apodPar = par.data 0)
    (R : ℝ) (hR : 0 < R) (hx : ∀ n, n < A.num → A.G.data n = R - 2 * R * n / A.num)
    (hy : ∀ n, n < A.num → A.G.data (A.num + n) = 0) (cp : ℝ) :
    ∃ b d, dreamApodWin fe junk met apod par = .ok (.call b) ∧ maxDimArr A.G A.num = .ok d ∧
      ∀ n, n < A.num → ∃ e, A.elem d cp n = .ok e ∧ e.weight = b.data n := by
  obtain ⟨b, e1, e2, e3⟩ := C68_window fe hfe junk met apod par ha hp A.num w hw h
  have hN : (1 : ℝ) ≤ A.num := by exact_mod_cast hA.num
  have fac : ∀ n, n < A.num → A.G.data n = R * (1 - 2 * (n : ℝ) / A.num) := by
    intro n hn; rw [hx n hn]; ring
  obtain ⟨d, hd, hh⟩ := line_weights A hA hon w hmet hw R hR
    (by
      intro n hn
      have hn' : (n : ℝ) ≤ A.num := by exact_mod_cast hn.le
      have h0 : 0 ≤ 2 * (n : ℝ) / A.num := by positivity
      have h2 : 2 * (n : ℝ) / A.num ≤ 2 := by rw [div_le_iff₀ (by linarith)]; linarith
      rw [fac n hn, abs_mul, abs_of_pos hR]
      have : |1 - 2 * (n : ℝ) / A.num| ≤ 1 := by rw [abs_le]; constructor <;> linarith
      nlinarith)
    ⟨0, hA.num, by rw [fac 0 hA.num]; simp [abs_of_pos hR]⟩ hy cp
  refine ⟨b, d, e1, hd, fun n hn => ?_⟩
  obtain ⟨e, g1, g2⟩ := hh n hn
  refine ⟨e, g1, ?_⟩
  rw [g2, e3 n hn, hpar, fac n hn, abs_mul, abs_of_pos hR, mul_div_cancel_left₀ _ hR.ne']

/-- C68: these are not the weights of the centred line array with the same number `num ≥ 2` of elements:
for the triangle window the array function gives its last element weight 0, the last sample is
`2 / num`. -/
theorem C68_not_centred_array (fe : FrontEnd) (hfe : fe.mo) (junk : ℕ → ℝ) (met : StrArg)
    (apod par : Arg ℝ) (ha : apod.IsMatrix) (hp : par.IsMatrix)
    (A : ArrPar ℝ) (hA : A.Sized) (h2 : 2 ≤ A.num)
    (h : ApodWinArgs fe met apod par A.num (some .triangle))
    (hon : A.doApod = true) (hmet : A.apodMet = .triangle) (pitch : ℝ) (hR : 0 < pitch)
    (hx : ∀ n, n < A.num → A.G.data n = pitch * (n - ((A.num : ℝ) - 1) / 2))
    (hy : ∀ n, n < A.num → A.G.data (A.num + n) = 0) (cp : ℝ) :
    ∃ b d e, dreamApodWin fe junk met apod par = .ok (.call b) ∧ maxDimArr A.G A.num = .ok d ∧
      A.elem d cp (A.num - 1) = .ok e ∧ e.weight = 0 ∧ b.data (A.num - 1) = 2 / A.num := by
  obtain ⟨b, e1, e2, e3⟩ := C68_window fe hfe junk met apod par ha hp A.num .triangle (by simp) h
  have hN : (2 : ℝ) ≤ A.num := by exact_mod_cast h2
  have hR' : 0 < pitch * (((A.num : ℝ) - 1) / 2) := by apply mul_pos hR; linarith
  have last : A.G.data (A.num - 1) = pitch * (((A.num : ℝ) - 1) / 2) := by
    rw [hx _ (by omega), Nat.cast_sub (by omega), Nat.cast_one]; ring
  obtain ⟨d, hd, hh⟩ := line_weights A hA hon .triangle hmet (by simp) _ hR'
    (by
      intro n hn
      have hn' : (n : ℝ) + 1 ≤ A.num := by exact_mod_cast hn
      have hn0 : (0 : ℝ) ≤ n := by positivity
      rw [hx n hn, abs_mul, abs_of_pos hR]
      apply mul_le_mul_of_nonneg_left _ hR.le
      rw [abs_le]; constructor <;> linarith)
    ⟨A.num - 1, by omega, by rw [last, abs_of_pos hR']⟩ hy cp
  obtain ⟨e, g1, g2⟩ := hh (A.num - 1) (by omega)
  refine ⟨b, d, e, e1, hd, g1, ?_, ?_⟩
  · rw [g2, last, abs_of_pos hR', div_self hR'.ne']
    simp [windowSpec]
  · rw [e3 _ (by omega), Nat.cast_sub (by omega), Nat.cast_one]
    simp only [windowSpec]
    have : 1 - 2 * ((A.num : ℝ) - 1) / A.num = -(1 - 2 / A.num) := by
      have : (A.num : ℝ) ≠ 0 := by linarith
      field_simp
      ring
    rw [this, abs_neg, abs_of_nonneg]
    · ring
    · have : 2 / (A.num : ℝ) ≤ 1 := by rw [div_le_one (by linarith)]; exact hN
      linarith

/-- C68: user defined weights that are numbers from 0 to 1, at least two of them, never come back. -/
theorem C68_weights_lost (junk : ℕ → ℝ) (apod par : Arg ℝ) (ha : apod.IsMatrix)
    (hp : par.shape = [1, 1]) (h2 : 2 ≤ apod.size) (h0 : 0 ≤ apod.data 0) (h1 : apod.data 0 ≤ 1) :
    dreamApodWin .octave junk (.text "ud") apod par = .ok (.rejected false) ∧
    ∃ h, dreamApodWin .matlab junk (.text "ud") apod par = .ok (.call h) ∧ h.size ≤ 1 ∧
      ∀ n, n < h.size → h.data n = 0 := by
  obtain ⟨num, hn, hle⟩ : ∃ num : ℕ, Arith.trunc (apod.data 0) = some (num : ℤ) ∧ num ≤ 1 := by
    rw [r_trunc]
    have e : truncR (apod.data 0) = ⌊apod.data 0⌋ := by unfold truncR; rw [if_pos h0]
    have f0 : 0 ≤ ⌊apod.data 0⌋ := Int.floor_nonneg.2 h0
    have f1 : ⌊apod.data 0⌋ ≤ 1 := by
      have := Int.floor_le (apod.data 0)
      have : (⌊apod.data 0⌋ : ℝ) ≤ 1 := by linarith
      exact_mod_cast this
    refine ⟨(⌊apod.data 0⌋).toNat, by rw [e]; congr 1; omega, by omega⟩
  have hf : IdxTy.signed.fits num = true := by
    simp [IdxTy.fits]; omega
  obtain ⟨a1, h, a2, a3, a4⟩ := (C68_user_weights junk apod par ha hp num (by omega) hn hf).2 (by omega)
  exact ⟨a1, h, a2, by omega, fun n hn => by rw [a4 n (by omega)]; simp [r_lit]⟩

/-! ### Examples -/

/-- A Hamming window with four samples. -/
noncomputable def exWinLen : Arg ℝ := ⟨[1, 1], fun _ => 4⟩

example : ApodWinArgs .octave (.text "hamming") exWinLen ⟨[1, 1], fun _ => 1⟩ 4 (some .hamming) where
  some_entry := by simp [Arg.size, exWinLen]
  len := by
    show Arith.trunc (4 : ℝ) = some ((4 : ℕ) : ℤ)
    rw [r_trunc]
    norm_num [truncR]
  fits := by simp [FrontEnd.idx, IdxTy.fits]
  name := ⟨_, rfl, .hamming⟩
  weights := by simp
  par := rfl

/-- The array of `C68_as_array` with four elements and `R = 3`. -/
noncomputable def exWinArr : ArrPar ℝ where
  num := 4
  G := ⟨12, fun i => if i < 4 then 3 - 2 * 3 * i / 4 else 0⟩
  focMet := .none
  focal := ⟨1, fun _ => 0⟩
  steerMet := .none
  theta := 0
  phi := 0
  doApod := true
  apod := ⟨4, fun _ => 0⟩
  apodMet := .hamming
  apodPar := 1

example : exWinArr.Sized ∧ (∀ n, n < exWinArr.num → exWinArr.G.data n = 3 - 2 * 3 * n / exWinArr.num) ∧
    (∀ n, n < exWinArr.num → exWinArr.G.data (exWinArr.num + n) = 0) := by
  refine ⟨⟨by simp [exWinArr], rfl, by simp [exWinArr], fun _ _ => rfl⟩, fun n hn => ?_, fun n hn => ?_⟩
  · have : n < 4 := hn
    simp [exWinArr, this]
  · simp [exWinArr]

/-- Three weights between 0 and 1. -/
example : ∃ apod : Arg ℝ, apod.IsMatrix ∧ 2 ≤ apod.size ∧ 0 ≤ apod.data 0 ∧ apod.data 0 ≤ 1 :=
  ⟨⟨[3, 1], fun _ => 1 / 2⟩, ⟨3, 1, rfl⟩, by simp [Arg.size], by norm_num, by norm_num⟩

end Dream
