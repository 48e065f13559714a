import Verif.WholeMore
import Verif.ClaimsWhole
import Verif.ClaimsArgsAnnu
import Verif.ClaimsGeoAnnu
import Verif.ClaimsDasFront

/-
C86: whole calls of the annular array function and of `das`.
-/

namespace Dream
open Arith Finset

/-! ### Annular arrays: specification -/

/-- A contribution of the full disc with radius number `k` arrives outside the time window at point `n`.  A
first radius of zero has no contributions. -/
def AnnuCall.DiscMisses (D : AnnuCall ℝ) (n k : ℕ) : Prop :=
  ¬ (k = 0 ∧ D.A.Gr.data 0 ≤ 1 / 2 ^ 52) ∧
  (discSurf (D.A.Gr.data k) D.p.dx D.p.dy).Misses D.nt D.p.cp (D.delayFor n) D.p.dt
    (D.obs n).1 (D.obs n).2.1 (D.obs n).2.2

/-- Is a contribution outside the window noted at point `n`?  Under error level stop that of any disc,
otherwise only that of the last radius. -/
def AnnuCall.MissesAt (D : AnnuCall ℝ) (n : ℕ) : Prop :=
  (D.level = .stop ∧ ∃ k < D.A.numRadii, D.DiscMisses n k) ∨
  (D.level ≠ .stop ∧ D.DiscMisses n (D.A.numRadii - 1))

/-- The arrival samples and the delays can be converted to the index type, and no ring is advanced by more than
one sample. -/
structure AnnuCall.Fits (D : AnnuCall ℝ) : Prop where
  arrivals : ∀ n < D.No, ∀ k < D.A.numRadii, ∀ q < (discSurf (D.A.Gr.data k) D.p.dx D.p.dy).rows,
    ∀ j < (discSurf (D.A.Gr.data k) D.p.dx D.p.dy).cols q,
    D.ty.fits ((discSurf (D.A.Gr.data k) D.p.dx D.p.dy).arrives D.p.cp (D.delayFor n) D.p.dt
      (D.obs n).1 (D.obs n).2.1 (D.obs n).2.2 q j) = true
  delays : ∀ n < D.A.numElements,
    D.ty.fits (rintR (annuDelaySpec D.A.focMet D.A.focal.data D.A.Gr.data D.A.numElements D.p.cp n /
      D.p.dt)) = true ∧
    0 ≤ rintR (annuDelaySpec D.A.focMet D.A.focal.data D.A.Gr.data D.A.numElements D.p.cp n / D.p.dt) + 1

/-- Sample `i` of the full disc with radius number `k` at point `n`. -/
noncomputable def AnnuCall.discHeard (D : AnnuCall ℝ) (n k i : ℕ) : ℝ :=
  if k = 0 ∧ D.A.Gr.data 0 ≤ 1 / 2 ^ 52 then 0
  else (discSurf (D.A.Gr.data k) D.p.dx D.p.dy).heard D.att D.nt D.p.v D.p.cp (D.delayFor n) D.p.dt
    (D.obs n).1 (D.obs n).2.1 (D.obs n).2.2 i

/-- Sample `i` of ring `m` at point `n`: its outer disc minus its inner disc. -/
noncomputable def AnnuCall.ringHeard (D : AnnuCall ℝ) (n m i : ℕ) : ℝ :=
  if m = 0 then D.discHeard n 0 i else D.discHeard n (2 * m) i - D.discHeard n (2 * m - 1) i

/-- Sample `i` of the response at point `n`: the weighted rings, each late by its delay, rounded to samples,
and one sample more. -/
noncomputable def AnnuCall.heard (D : AnnuCall ℝ) (n i : ℕ) : ℝ :=
  ∑ m ∈ range D.A.numElements,
    annuWeightSpec D.A.doApod D.A.apodMet D.A.apod.data D.A.Gr.data D.A.apodPar D.A.numElements m *
    if rintR (annuDelaySpec D.A.focMet D.A.focal.data D.A.Gr.data D.A.numElements D.p.cp m / D.p.dt) + 1
        ≤ (i : ℤ) then
      D.ringHeard n m (i - (rintR (annuDelaySpec D.A.focMet D.A.focal.data D.A.Gr.data D.A.numElements
        D.p.cp m / D.p.dt) + 1).toNat)
    else 0

/-- Without attenuation this is the response of C53. -/
theorem C86_annu_lossless (D : AnnuCall ℝ) (hatt : D.att = none) (n i : ℕ) (hi : i < D.nt) :
    D.heard n i = annuResp D.A.Gr.data { D.p with delay := D.delayFor n } (D.obs n).1 (D.obs n).2.1
      (D.obs n).2.2 D.A.numElements
      (annuDelaySpec D.A.focMet D.A.focal.data D.A.Gr.data D.A.numElements D.p.cp)
      (annuWeightSpec D.A.doApod D.A.apodMet D.A.apod.data D.A.Gr.data D.A.apodPar D.A.numElements) i := by
  have hdisc : ∀ k i, i < D.nt → D.discHeard n k i =
      discSample D.A.Gr.data { D.p with delay := D.delayFor n } (D.obs n).1 (D.obs n).2.1 (D.obs n).2.2 k i := by
    intro k i hi
    unfold AnnuCall.discHeard discSample
    rw [hatt, C82_lossless _ _ _ _ _ _ _ _ _ _ hi]
  unfold AnnuCall.heard annuResp
  refine Finset.sum_congr rfl fun m _ => ?_
  congr 1
  split
  · have hlt : i - (rintR (annuDelaySpec D.A.focMet D.A.focal.data D.A.Gr.data D.A.numElements
      D.p.cp m / D.p.dt) + 1).toNat < D.nt := by omega
    unfold AnnuCall.ringHeard ringResp
    rw [hdisc _ _ hlt, hdisc _ _ hlt, hdisc _ _ hlt]
  · rfl

/-! ### Annular arrays: one observation point -/

/-- The loop over the discs stops at the first one out of bounds. -/
theorem annuDiscs_stop {F : Type} [Arith F] (A : AnnuPar F) (hA : A.Sized) (nt : Nat) (ty : IdxTy)
    (level : ErrorLevel) (att : Option (AttResp F)) (p : Par F) (xo yo zo : F) (fuel : Nat)
    (disc : Nat → Buf F) (code : Nat → SIRError)
    (hd : ∀ n, n < A.numRadii → A.DiscIs nt ty level att p xo yo zo fuel n (disc n) (code n)) :
    ∀ (k n : Nat) (h : Buf F) (e : SIRError), n + k = A.numRadii → h.size = nt * A.numRadii →
    (n = 0 → e = .none) →
    (∀ j, n ≤ j → ∀ i, i < nt → h.data (j * nt + i) = lit 0) →
    (∃ j, n ≤ j ∧ j < A.numRadii ∧ code j = .outOfBounds) →
    ∃ h', annuDiscs A nt ty level att p xo yo zo fuel k n (h, e) = .ok (h', .outOfBounds) := by
  intro k
  induction k with
  | zero =>
    rintro n h e hn hs _ _ ⟨j, h1, h2, -⟩
    omega
  | succ k ih =>
    intro n h e hn hs he h2 hex
    have hin : n * nt + nt ≤ h.size := by
      have : (n + 1) * nt ≤ A.numRadii * nt := Nat.mul_le_mul_right _ (by omega)
      rw [Nat.add_mul, Nat.one_mul] at this
      rw [hs, Nat.mul_comm nt]
      exact this
    have hstep : ∃ h', annuDisc A nt ty level att p xo yo zo fuel n (h, e) = .ok (h', code n) ∧
        h'.size = h.size ∧ ∀ j, n + 1 ≤ j → ∀ i, i < nt → h'.data (j * nt + i) = h.data (j * nt + i) := by
      have hout : ∀ j, n + 1 ≤ j → ∀ i, i < nt → ¬ (n * nt ≤ j * nt + i ∧ j * nt + i < n * nt + nt) := by
        intro j hj i hi
        have : (n + 1) * nt ≤ j * nt := Nat.mul_le_mul_right _ hj
        rw [Nat.add_mul, Nat.one_mul] at this
        omega
      unfold annuDisc
      rw [Buf.read_nat _ _ (by have := hA.gr; omega)]
      simp only [Outcome.bind]
      have hdn := hd n (by omega)
      unfold AnnuPar.DiscIs at hdn
      by_cases h0 : n = 0 ∧ le (A.Gr.data 0) epsilon = true
      · rw [if_pos h0] at hdn
        rw [if_pos (by rw [h0.1]; exact ⟨rfl, h0.2⟩)]
        have hn0 := h0.1
        subst hn0
        have := clearCol_setCol h 0 nt (h.getCol 0 nt) (by omega) nt (Nat.le_refl _)
        rw [Buf.setCol_getCol] at this
        rw [this]
        simp only [Outcome.map, hdn.2, he rfl]
        refine ⟨_, rfl, rfl, fun j hj i hi => ?_⟩
        have := hout j hj i hi
        rw [Buf.setCol_data_out _ _ _ _ _ (by omega)]
      · rw [if_neg h0] at hdn
        have h0' : ¬ (n = 0 ∧ le (A.Gr.data n) epsilon = true) := by
          intro hh; apply h0; refine ⟨hh.1, ?_⟩; have := hh.1; subst this; exact hh.2
        rw [if_neg h0']
        refine ⟨_, disc_in nt ty level att p xo yo zo (A.Gr.data n) fuel (n * nt) h hin
          (fun i hi => h2 n (Nat.le_refl _) i hi) (disc n) (code n) hdn, rfl, fun j hj i hi => ?_⟩
        have := hout j hj i hi
        rw [Buf.setCol_data_out _ _ _ _ _ (by omega)]
    obtain ⟨h', e1, e2, e3⟩ := hstep
    simp only [annuDiscs]
    rw [e1]
    simp only [Outcome.bind]
    by_cases ho : code n = .outOfBounds
    · rw [if_pos ho, ho]; exact ⟨_, rfl⟩
    · rw [if_neg ho]
      refine ih (n + 1) h' (code n) (by omega) (by rw [e2, hs]) (by omega) ?_ ?_
      · intro j hj i hi
        rw [e3 j hj i hi]; exact h2 j (by omega) i hi
      · obtain ⟨j, j1, j2, j3⟩ := hex
        refine ⟨j, ?_, j2, j3⟩
        by_contra hlt
        have : j = n := by omega
        subst this
        exact ho j3

/-- If some disc is out of bounds so is the array. -/
theorem annuSerial_stop {F : Type} [Arith F] (A : AnnuPar F) (hA : A.Sized) (nt : Nat) (ty : IdxTy)
    (level : ErrorLevel) (att : Option (AttResp F)) (p : Par F) (xo yo zo : F) (fuel : Nat)
    (disc : Nat → Buf F) (code : Nat → SIRError)
    (hd : ∀ n, n < A.numRadii → A.DiscIs nt ty level att p xo yo zo fuel n (disc n) (code n))
    (hex : ∃ j, j < A.numRadii ∧ code j = .outOfBounds) (c : Nat → F) :
    ∃ c', (annuSerial A nt ty level att p xo yo zo fuel).runCol nt c = .ok (c', .outOfBounds) := by
  obtain ⟨j, hj, hjc⟩ := hex
  unfold annuSerial
  rw [Prog.runCol_bind, Prog.forN_pointwise nt nt _ (fun _ _ => lit 0)
    (by
      intro i hi c
      simp only [Prog.runCol]
      rw [if_pos (by omega)]
      simp)]
  simp only [Outcome.bind]
  obtain ⟨h', f1⟩ := annuDiscs_stop A hA nt ty level att p xo yo zo fuel disc code hd
    A.numRadii 0 (zeros F (nt * A.numRadii)) .none (by omega) rfl (fun _ => rfl)
    (fun j _ i _ => rfl) ⟨j, by omega, hj, hjc⟩
  rw [Prog.runCol_bind, Prog.runCol_lift]
  simp only [zeros] at f1
  rw [f1]
  simp only [Outcome.map, Outcome.bind, if_true, Prog.runCol]
  exact ⟨_, rfl⟩

open Classical in
/-- One disc. -/
theorem AnnuCall.disc_heard (D : AnnuCall ℝ) (hdx : 0 < D.p.dx) (hdy : 0 < D.p.dy) (hfit : D.Fits)
    (hf : ∀ k < D.A.numRadii, (discSurf (D.A.Gr.data k) D.p.dx D.p.dy).fuel ≤ D.fuel)
    (n : ℕ) (hn : n < D.No) (k : ℕ) (hk : k < D.A.numRadii) :
    ∃ d, D.A.DiscIs D.nt D.ty D.level D.att { D.p with delay := D.delayFor n } (D.obs n).1 (D.obs n).2.1
        (D.obs n).2.2 D.fuel k d (if D.DiscMisses n k then codeOf D.level else .none) ∧
      ((if D.DiscMisses n k then codeOf D.level else .none) ≠ SIRError.outOfBounds →
        ∀ i, i < D.nt → d.data i = D.discHeard n k i) := by
  have heps : (le (D.A.Gr.data 0) epsilon = true) ↔ D.A.Gr.data 0 ≤ 1 / 2 ^ 52 := by
    simp only [epsilon, r_lit, r_le, decide_eq_true_eq]
    push_cast
    norm_num
  unfold AnnuPar.DiscIs AnnuCall.discHeard AnnuCall.DiscMisses
  simp only [heps]
  by_cases h0 : k = 0 ∧ D.A.Gr.data 0 ≤ 1 / 2 ^ 52
  · simp only [h0, and_self, if_true, not_true_eq_false, false_and, if_false]
    refine ⟨_, ⟨rfl, trivial⟩, fun _ i hi => ?_⟩
    simp [zeros]
  · simp only [h0, if_false, not_false_eq_true, true_and]
    obtain ⟨m', g1, g2⟩ := Kern.hears (Kern.circ 1 (D.A.Gr.data k)) D.nt D.ty D.level D.att
      { D.p with delay := D.delayFor n } (D.obs n).1 (D.obs n).2.1 (D.obs n).2.2 0 (zeros ℝ D.nt)
      (by simp [zeros]) ⟨hdx, hdy, by rintro w a b Rc h; cases h⟩ (hfit.arrivals n hn k hk) D.fuel (hf k hk)
    refine ⟨m', ?_, fun hne i hi => ?_⟩
    · have : (lit 1 : ℝ) = 1 := by simp
      rw [this]; exact g1
    · have := g2 hne i hi
      rw [Nat.zero_add] at this
      rw [this]
      simp [Kern.startsFromZero, Kern.wt, zeros, Kern.surf]

open Classical in
/-- One observation point of an annular call. -/
theorem AnnuCall.serial_heard (D : AnnuCall ℝ) (m : Buf ℝ) (hs : D.Sized m) (hr : D.A.GoodRadii)
    (hdx : 0 < D.p.dx) (hdy : 0 < D.p.dy) (hl : D.level = .ignore ∨ D.level = .warn ∨ D.level = .stop)
    (hfit : D.Fits) (hf : ∀ k < D.A.numRadii, (discSurf (D.A.Gr.data k) D.p.dx D.p.dy).fuel ≤ D.fuel)
    (n : ℕ) (hn : n < D.No) :
    ∃ fuel m', D.drv.serialAt n fuel m =
        .ok (m', if D.MissesAt n then codeOf D.level else .none) ∧
      ((if D.MissesAt n then codeOf D.level else .none) ≠ SIRError.outOfBounds →
        ∀ i, i < D.nt → m'.data (n * D.nt + i) = D.heard n i) := by
  have hdisc : ∀ k, ∃ d : Buf ℝ, k < D.A.numRadii →
      D.A.DiscIs D.nt D.ty D.level D.att { D.p with delay := D.delayFor n } (D.obs n).1 (D.obs n).2.1
        (D.obs n).2.2 D.fuel k d (if D.DiscMisses n k then codeOf D.level else .none) ∧
      ((if D.DiscMisses n k then codeOf D.level else .none) ≠ SIRError.outOfBounds →
        ∀ i, i < D.nt → d.data i = D.discHeard n k i) := by
    intro k
    by_cases hk : k < D.A.numRadii
    · obtain ⟨d, g⟩ := D.disc_heard hdx hdy hfit hf n hn k hk
      exact ⟨d, fun _ => g⟩
    · exact ⟨zeros ℝ 0, fun h => absurd h hk⟩
  choose disc hd using hdisc
  have hE : D.A.numElements = (D.A.numRadii + 1) / 2 := rfl
  have h1 := hs.arr.radii
  have hco : codeOf D.level = .outOfBounds ↔ D.level = .stop := by
    rcases hl with h' | h' | h' <;> rw [h'] <;> simp [codeOf]
  -- from the column to the buffer
  suffices key : ∃ c', (D.prog n).runCol D.nt (m.getCol (n * D.nt) D.nt) =
        .ok (c', if D.MissesAt n then codeOf D.level else .none) ∧
      ((if D.MissesAt n then codeOf D.level else .none) ≠ SIRError.outOfBounds →
        ∀ i, i < D.nt → c' i = D.heard n i) by
    obtain ⟨c', g1, g2⟩ := key
    refine ⟨0, m.setCol (n * D.nt) D.nt c', ?_, fun hne i hi => ?_⟩
    · show (D.prog n).runBuf (n * D.nt) m = _
      rw [Prog.runBuf_col (n * D.nt) D.nt m (AnnuCall.inside hs n hn) (D.prog n) (by rw [g1]; simp), g1]
      rfl
    · rw [Buf.setCol_data_in _ _ _ _ _ hi, g2 hne i hi]
  have hprog : ∀ c, (D.prog n).runCol D.nt c = (annuSerial D.A D.nt D.ty D.level D.att
      { D.p with delay := D.delayFor n } (D.obs n).1 (D.obs n).2.1 (D.obs n).2.2 D.fuel).runCol D.nt c := by
    intro c
    unfold AnnuCall.prog
    rw [D.inputs_eq m hs n hn, Prog.runCol_bind, Prog.runCol_lift]
    rfl
  rw [hprog]
  by_cases hex : ∃ j, j < D.A.numRadii ∧
      (if D.DiscMisses n j then codeOf D.level else .none) = SIRError.outOfBounds
  · obtain ⟨c', g⟩ := annuSerial_stop D.A hs.arr D.nt D.ty D.level D.att
      { D.p with delay := D.delayFor n } (D.obs n).1 (D.obs n).2.1 (D.obs n).2.2 D.fuel disc
      (fun k => if D.DiscMisses n k then codeOf D.level else .none) (fun k hk => (hd k hk).1) hex
      (m.getCol (n * D.nt) D.nt)
    obtain ⟨j, hj, hjo⟩ := hex
    have hM : D.MissesAt n := by
      by_cases hjm : D.DiscMisses n j
      · rw [if_pos hjm] at hjo
        exact .inl ⟨hco.1 hjo, j, hj, hjm⟩
      · rw [if_neg hjm] at hjo; simp at hjo
    have hlev : codeOf D.level = .outOfBounds := by
      by_cases hjm : D.DiscMisses n j
      · rwa [if_pos hjm] at hjo
      · rw [if_neg hjm] at hjo; simp at hjo
    refine ⟨c', ?_, fun hne => ?_⟩
    · rw [g, if_pos hM, hlev]
    · rw [if_pos hM, hlev] at hne; exact absurd rfl hne
  · have hno : ∀ j, j < D.A.numRadii →
        (if D.DiscMisses n j then codeOf D.level else .none) ≠ SIRError.outOfBounds :=
      fun j hj h => hex ⟨j, hj, h⟩
    have hrun := C22_rings D.A hs.arr D.nt D.ty D.level D.att { D.p with delay := D.delayFor n }
      (D.obs n).1 (D.obs n).2.1 (D.obs n).2.2 D.fuel disc
      (fun k => if D.DiscMisses n k then codeOf D.level else .none) (fun k hk => (hd k hk).1) hno
      (fun k => rintR (annuDelaySpec D.A.focMet D.A.focal.data D.A.Gr.data D.A.numElements D.p.cp k / D.p.dt))
      (by
        intro k hk
        refine ⟨?_, (hfit.delays k hk).2⟩
        rw [ringDelay_eq]
        simp only [r_div, r_rint, castIdx]
        rw [if_pos (hfit.delays k hk).1]) (m.getCol (n * D.nt) D.nt)
    have herr : (if D.DiscMisses n (D.A.numRadii - 1) then codeOf D.level else SIRError.none) =
        (if D.MissesAt n then codeOf D.level else .none) := by
      by_cases hs' : D.level = .stop
      · have hnone : ∀ j, j < D.A.numRadii → ¬ D.DiscMisses n j := by
          intro j hj hjm
          apply hno j hj
          rw [if_pos hjm, hco.2 hs']
        rw [if_neg (hnone _ (by omega)), if_neg]
        rintro (⟨-, j, hj, h⟩ | ⟨h, -⟩)
        · exact hnone j hj h
        · exact h hs'
      · by_cases hjm : D.DiscMisses n (D.A.numRadii - 1)
        · rw [if_pos hjm, if_pos (show D.MissesAt n from .inr ⟨hs', hjm⟩)]
        · rw [if_neg hjm, if_neg]
          rintro (⟨h, -⟩ | ⟨-, h⟩)
          · exact hs' h
          · exact hjm h
    beta_reduce at hrun
    rw [herr] at hrun
    refine ⟨_, hrun, fun _ i hi => ?_⟩
    · rw [if_pos hi, list_foldl_sum]
      unfold AnnuCall.heard
      refine Finset.sum_congr rfl fun q hq => ?_
      rw [Finset.mem_range] at hq
      rw [ringWeight_eq D.A hr q hq]
      simp only [r_mul, r_lit, Rat.cast_zero]
      congr 1
      split
      · next hle =>
        have hlt : i - (rintR (annuDelaySpec D.A.focMet D.A.focal.data D.A.Gr.data D.A.numElements D.p.cp q
          / D.p.dt) + 1).toNat < D.nt := by omega
        unfold ringSample AnnuCall.ringHeard
        by_cases h0 : q = 0
        · rw [if_pos h0, if_pos h0, (hd 0 (by omega)).2 (hno _ (by omega)) _ hlt]
        · rw [if_neg h0, if_neg h0, (hd _ (by omega)).2 (hno _ (by omega)) _ hlt,
            (hd _ (by omega)).2 (hno _ (by omega)) _ hlt]; rfl
      · rfl

/-! ### Annular arrays: whole calls -/

/-- The answer to a call of the annular array function with `nth` workers. -/
noncomputable def AnnuCall.answer (D : AnnuCall ℝ) (T : Tail) (nth : ℕ) : Seen ℝ :=
  answerOf D.level D.nt D.No T nth (∃ n < D.No, D.MissesAt n) D.heard

/-- C86, annular arrays: with arguments as checked, at least one radius, a non-empty delay, positive steps,
radii that are not negative, arrival samples and delays that the index type can hold, and nobody pressing
CTRL-C, exactly one thing can happen, whatever the schedule of the workers. -/
theorem C86_annu (fe : FrontEnd) (x : AnnuArgs ℝ) (hx : x.Typed fe) (No nt : ℕ)
    (met : FocusMet) (am : Option ApodMet) (level : ErrorLevel) (h : AnnuDoc fe x No nt met am level)
    (hdel : x.delay.size ≠ 0) (hrad : x.radii.size ≠ 0)
    (D : AnnuCall ℝ) (hD : D = (x.meant exactLib fe No nt met am level).call 0)
    (hr : D.A.GoodRadii) (hdx : 0 < D.p.dx) (hdy : 0 < D.p.dy) (hfit : D.Fits)
    (two : Bool) (hw : ℕ) (env : Option String) (o : Seen ℝ) :
    AnnuSees exactLib fe x two hw env o ↔
      o = ((chooseThreads fe.idx.cnt hw env No).map fun nth => D.answer (arrTail fe two) nth).getD
        .thrown := by
  set c := x.meant exactLib fe No nt met am level with hc
  have hfront := C51_call exactLib fe x hx No nt met am level h
  rw [← hc] at hfront
  have hA : c.A.Sized := C51_sized exactLib fe x hx hrad c hfront
  have hz : (⟨c.No * c.nt, fun _ => lit 0⟩ : Buf ℝ) = zeroBuf (c.No * c.nt) := by
    simp only [zeroBuf, r_lit]; norm_num
  have hsz : ∀ fuel, (c.call fuel).Sized (zeroBuf (c.No * c.nt)) := by
    intro fuel
    refine ⟨hA, ?_, ?_, rfl, ?_⟩
    · show x.ro.size = 3 * No
      rw [Arg.size_eq h.ro]; ring
    · show x.delay.size = match (if x.delay.size = 1 then DelayType.single else .multiple) with
        | .single => 1 | .multiple => No
      rcases h.delay with h' | h' | h'
      · exact absurd h' hdel
      · rw [if_pos h', h']
      · by_cases h1 : x.delay.size = 1
        · rw [if_pos h1, h1]
        · rw [if_neg h1, h']
    · intro n hn q hq
      subst hD
      have hf := hfit.delays n hn
      rw [ringDelay_eq] at hq
      simp only [r_div, r_rint, castIdx] at hq
      have hf1 : c.ty.fits (rintR (annuDelaySpec c.A.focMet c.A.focal.data c.A.Gr.data c.A.numElements c.p.cp n /
        c.p.dt)) = true := hf.1
      have hq' : (if c.ty.fits (rintR (annuDelaySpec c.A.focMet c.A.focal.data c.A.Gr.data c.A.numElements
          c.p.cp n / c.p.dt)) = true then Outcome.ok (rintR (annuDelaySpec c.A.focMet c.A.focal.data c.A.Gr.data
          c.A.numElements c.p.cp n / c.p.dt)) else .ub .cast) = .ok q := hq
      rw [if_pos hf1] at hq'
      injection hq' with hq'
      rw [← hq']; exact hf.2
  have hlev : c.level = .ignore ∨ c.level = .warn ∨ c.level = .stop := errArg_levels h.err
  have hty : c.ty = fe.idx := rfl
  obtain ⟨N, hN⟩ : ∃ N, ∀ k < c.A.numRadii, (discSurf (c.A.Gr.data k) c.p.dx c.p.dy).fuel ≤ N :=
    ⟨∑ k ∈ range c.A.numRadii, (discSurf (c.A.Gr.data k) c.p.dx c.p.dy).fuel, fun k hk =>
      Finset.single_le_sum (f := fun k => (discSurf (c.A.Gr.data k) c.p.dx c.p.dy).fuel)
        (fun _ _ => Nat.zero_le _) (Finset.mem_range.2 hk)⟩
  have key : ∀ fuel, N ≤ fuel → ∀ o, (c.call fuel).drv.Sees (arrTail fe two) c.ty.cnt hw env
      ⟨c.No * c.nt, fun _ => lit 0⟩ o ↔ o = ((chooseThreads fe.idx.cnt hw env No).map fun nth =>
        D.answer (arrTail fe two) nth).getD .thrown := by
    intro fuel hfu o
    subst hD
    have hfit' : (c.call fuel).Fits := ⟨hfit.arrivals, hfit.delays⟩
    have key := Drv.sees_iff (D := (c.call fuel).drv) (m := zeroBuf (c.No * c.nt)) (arrTail fe two)
      (AnnuCall.faithful (hsz fuel))
      (open Classical in fun n => if (c.call 0).MissesAt n then codeOf c.level else .none) (c.call 0).heard
      (fun n hn => (c.call fuel).serial_heard _ (hsz fuel) hr hdx hdy hlev hfit'
        (fun k hk => le_trans (hN k hk) hfu) n hn) c.ty.cnt hw env o
    have hans : ∀ nth, (c.call fuel).drv.expected (arrTail fe two) nth
        (open Classical in fun n => if (c.call 0).MissesAt n then codeOf c.level else .none)
        (c.call 0).heard = (c.call 0).answer (arrTail fe two) nth := fun nth =>
      (c.call fuel).drv.expected_answer (arrTail fe two) nth hlev (c.call 0).MissesAt (c.call 0).heard
    simp only [hans] at key
    rw [hz]
    exact key
  constructor
  · intro hsee
    cases hsee with
    | refused b h' => rw [hfront] at h'; simp at h'
    | undefined h' => exact absurd hfront (h' _)
    | called c' h' o M hs' =>
      rw [hfront] at h'
      obtain rfl : c = c' := by simpa using h'
      exact (key (max N M) (le_max_left _ _) o).1 (hs' _ (le_max_right _ _))
  · intro ho
    exact .called c hfront o N fun fuel hfu => (key fuel hfu o).2 ho

/-- C86, annular arrays: with at least two workers and an odd number of radii (every radius bounds a ring) the
call gives the documented answer, if under ignore and warn the disc of the last radius misses the window
whenever another one does. -/
theorem C86_annu_documented (fe : FrontEnd) (x : AnnuArgs ℝ) (hx : x.Typed fe) (No nt : ℕ)
    (met : FocusMet) (am : Option ApodMet) (level : ErrorLevel) (h : AnnuDoc fe x No nt met am level)
    (hdel : x.delay.size ≠ 0) (hrad : x.radii.size ≠ 0)
    (D : AnnuCall ℝ) (hD : D = (x.meant exactLib fe No nt met am level).call 0)
    (hr : D.A.GoodRadii) (hdx : 0 < D.p.dx) (hdy : 0 < D.p.dy) (hfit : D.Fits)
    (two : Bool) (hw : ℕ) (env : Option String) (nth : ℕ)
    (hn : chooseThreads fe.idx.cnt hw env No = some nth) (h2 : 2 ≤ nth)
    (hodd : D.A.numRadii = 2 * D.A.numElements - 1)
    (hlast : level = .stop ∨ ∀ n < No, (∃ k < D.A.numRadii, D.DiscMisses n k) →
      D.DiscMisses n (D.A.numRadii - 1)) (o : Seen ℝ) :
    AnnuSees exactLib fe x two hw env o ↔
      o = documentedAnswer level nt No (two && decide (fe = .matlab ∨ fe = .octave))
        (∃ n < No, ∃ k < 2 * D.A.numElements - 1, D.DiscMisses n k) D.heard := by
  rw [C86_annu fe x hx No nt met am level h hdel hrad D hD hr hdx hdy hfit two hw env o, hn]
  simp only [Option.map_some, Option.getD_some]
  have e1 : D.No = No := by rw [hD]; rfl
  have e2 : D.nt = nt := by rw [hD]; rfl
  have e3 : D.level = level := by rw [hD]; rfl
  have hA : D.A.Sized := by
    rw [hD]
    exact C51_sized exactLib fe x hx hrad _ (C51_call exactLib fe x hx No nt met am level h)
  have hne := hA.radii
  have hM : (∃ n < No, D.MissesAt n) = (∃ n < No, ∃ k < 2 * D.A.numElements - 1, D.DiscMisses n k) := by
    apply propext
    rw [← hodd]
    unfold AnnuCall.MissesAt
    rw [e3]
    constructor
    · rintro ⟨n, hn, ⟨-, k, hk, h'⟩ | ⟨-, h'⟩⟩
      · exact ⟨n, hn, k, hk, h'⟩
      · exact ⟨n, hn, _, by omega, h'⟩
    · rintro ⟨n, hn, k, hk, h'⟩
      by_cases hs : level = .stop
      · exact ⟨n, hn, .inl ⟨hs, k, hk, h'⟩⟩
      · exact ⟨n, hn, .inr ⟨hs, (hlast.resolve_left hs) n hn ⟨k, hk, h'⟩⟩⟩
  unfold AnnuCall.answer answerOf documentedAnswer
  rw [e1, e2, e3, hM]
  have t1 : (arrTail fe two).sphere = false := rfl
  have t2 : (arrTail fe two).warns = true := rfl
  have t3 : (arrTail fe two).second = (two && decide (fe = .matlab ∨ fe = .octave)) := rfl
  rw [t1, t2, t3]
  generalize (∃ n < No, ∃ k < 2 * D.A.numElements - 1, D.DiscMisses n k) = M
  by_cases hM' : M <;> simp [hM', h2]

/-- C86, annular arrays: with one worker a noted contribution outside the window gives no warning and a second
output of zero, and under error level stop a message about CTRL-C. -/
theorem C86_annu_one_worker_violated (fe : FrontEnd) (x : AnnuArgs ℝ) (hx : x.Typed fe) (No nt : ℕ)
    (met : FocusMet) (am : Option ApodMet) (level : ErrorLevel) (h : AnnuDoc fe x No nt met am level)
    (hdel : x.delay.size ≠ 0) (hrad : x.radii.size ≠ 0)
    (D : AnnuCall ℝ) (hD : D = (x.meant exactLib fe No nt met am level).call 0)
    (hr : D.A.GoodRadii) (hdx : 0 < D.p.dx) (hdy : 0 < D.p.dy) (hfit : D.Fits)
    (two : Bool) (hw : ℕ) (env : Option String)
    (hn : chooseThreads fe.idx.cnt hw env No = some 1) (hM : ∃ n < No, D.MissesAt n) (o : Seen ℝ) :
    AnnuSees exactLib fe x two hw env o ↔
      o = if level = .stop then .failed false
        else .matrix false (if (two && decide (fe = .matlab ∨ fe = .octave)) = true then some .none else none)
          nt No (fun i n => if i < nt ∧ n < No then D.heard n i else 0) := by
  rw [C86_annu fe x hx No nt met am level h hdel hrad D hD hr hdx hdy hfit two hw env o, hn]
  simp only [Option.map_some, Option.getD_some]
  have e1 : D.No = No := by rw [hD]; rfl
  have e2 : D.nt = nt := by rw [hD]; rfl
  have e3 : D.level = level := by rw [hD]; rfl
  unfold AnnuCall.answer answerOf
  rw [e1, e2, e3]
  by_cases hl : level = .stop <;> simp [arrTail, hl, hM]

/-! ### Non-vacuity: two radii -/

/-- `m` radii `g`, two observation points 5 mm in front of the origin, responses of 8 samples of a
microsecond. -/
noncomputable def wideArgs (fe : FrontEnd) (m : ℕ) (g : ℕ → ℝ) (lvl : String) : AnnuArgs ℝ where
  ro := ⟨[2, 3], fun i => if 4 ≤ i then 5 else 0⟩
  radii := ⟨match fe with | .julia => [m] | _ => [m, 1], g⟩
  sPar := ⟨toyShape fe 4, fun i => [2, 2, 1, 8].getD i 0⟩
  delay := ⟨toyShape fe 1, fun _ => 0⟩
  mPar := ⟨toyShape fe 3, fun i => [1, 1000, 0].getD i 0⟩
  foc := .text "off"
  focal := ⟨toyShape fe 1, fun _ => 1⟩
  apod := .text "off"
  apodVec := ⟨toyShape fe 1, fun _ => 1⟩
  winPar := ⟨[1, 1], fun _ => 3⟩
  err := some (.text lvl)

theorem wideArgs_typed (fe : FrontEnd) (m : ℕ) (g : ℕ → ℝ) (lvl : String) :
    (wideArgs fe m g lvl).Typed fe := by
  cases fe <;> first
    | exact ⟨⟨_, _, rfl⟩, ⟨_, _, rfl⟩, ⟨_, _, rfl⟩, ⟨_, _, rfl⟩, ⟨_, _, rfl⟩, ⟨_, _, rfl⟩, ⟨_, _, rfl⟩,
        fun _ => ⟨_, _, rfl⟩⟩
    | exact ⟨⟨_, _, rfl⟩, ⟨_, rfl⟩, ⟨_, rfl⟩, ⟨_, rfl⟩, ⟨_, rfl⟩, ⟨_, rfl⟩, ⟨_, rfl⟩, fun _ => ⟨_, _, rfl⟩⟩

theorem wideArgs_doc (fe : FrontEnd) (m : ℕ) (hm : 1 ≤ m) (g : ℕ → ℝ) (hj : fe ≠ .julia ∨ m % 2 = 1)
    (lvl : String) (level : ErrorLevel) (hl : ErrName lvl level) :
    AnnuDoc fe (wideArgs fe m g lvl) 2 8 .none none level where
  ro := rfl
  radii := ⟨false, by
    cases fe with
    | julia => simp [checkArrayAnnu, wideArgs, Arg.size, hj.resolve_left (by simp)]
    | _ => simp [checkArrayAnnu, wideArgs, Arg.dim, Outcome.bind]⟩
  sPar := by cases fe <;> first | rfl | exact Or.inr rfl
  len := by
    show some (truncR 8) = _
    unfold truncR
    rw [if_pos (by norm_num), show (8 : ℝ) = ((8 : ℤ) : ℝ) by norm_num, Int.floor_intCast]
    rfl
  fits := by cases fe <;> decide
  delay := by
    have : (wideArgs fe m g lvl).delay.size = 1 := by cases fe <;> simp [wideArgs, Arg.size, toyShape]
    omega
  mPar := by cases fe <;> first | rfl | exact Or.inr rfl
  foc := by
    refine ⟨⟨"off", rfl, .off⟩, ?_⟩
    rw [if_neg (by decide)]
    cases fe <;> simp [wideArgs, Arg.size, toyShape, entriesWanted] <;> omega
  apod := ⟨⟨"off", rfl, .off⟩, fun h => by (cases h), fun _ => rfl⟩
  err := Or.inr ⟨lvl, rfl, hl⟩

/-- Arrival samples are not negative when the delay is zero. -/
theorem arrives_nonneg (S : Surf) (q j : ℕ) (hf : S.foc q j = 0) :
    0 ≤ S.arrives 1000 0 1 0 0 5 q j := by
  have h0 : 0 ≤ S.dist 0 0 5 q j := Real.sqrt_nonneg _
  have hn := rintR_near ((S.dist 0 0 5 q j * 1000 / 1000 - (0 - S.foc q j)) / 1)
  unfold Surf.arrives arrivalSample
  generalize hz : rintR ((S.dist 0 0 5 q j * 1000 / 1000 - (0 - S.foc q j)) / 1) = z at hn ⊢
  rw [hf, abs_le] at hn
  have h1 : (-1 : ℝ) < z := by linarith [hn.2]
  have h2 : (-1 : ℤ) < z := by exact_mod_cast h1
  omega

theorem wide_fits (fe : FrontEnd) (m : ℕ) (g : ℕ → ℝ) (hg : ∀ k, 0 ≤ g k ∧ g k ≤ 100) (lvl : String)
    (level : ErrorLevel) (D : AnnuCall ℝ)
    (hD : D = ((wideArgs fe m g lvl).meant exactLib fe 2 8 .none none level).call 0) :
    D.A.GoodRadii ∧ 0 < D.p.dx ∧ 0 < D.p.dy ∧ D.Fits ∧ D.A.numRadii = m ∧ D.A.numElements = (m + 1) / 2 ∧
    D.p = { dx := 2, dy := 2, dt := 1, delay := 0, v := 1, cp := 1000 } ∧ D.A.Gr.data = g ∧ D.nt = 8 ∧
    (∀ n, D.delayFor n = 0) ∧ ∀ n < 2, D.obs n = (0, 0, 5) := by
  have hp : D.p = { dx := 2, dy := 2, dt := 1, delay := 0, v := 1, cp := 1000 } := by
    rw [hD]; simp [AnnuFront.call, AnnuArgs.meant, wideArgs]
  have hG : D.A.Gr.data = g := by rw [hD]; rfl
  have hR : D.A.numRadii = m := by
    rw [hD]; cases fe <;> simp [AnnuFront.call, AnnuArgs.meant, wideArgs, Arg.size, radiiUsed]
  have hE : D.A.numElements = (m + 1) / 2 := by unfold AnnuPar.numElements; rw [hR]
  have hobs : ∀ n < 2, D.obs n = (0, 0, 5) := by
    intro n hn
    have : n = 0 ∨ n = 1 := by omega
    rw [hD]
    rcases this with rfl | rfl <;>
      simp [AnnuCall.obs, AnnuFront.call, AnnuArgs.meant, wideArgs, Arg.buf]
  have hdel : ∀ n, D.delayFor n = 0 := by
    intro n
    rw [hD]
    simp [AnnuCall.delayFor, AnnuFront.call, AnnuArgs.meant, wideArgs, Arg.buf]
  have hnt : D.nt = 8 := by rw [hD]; rfl
  have hNo : D.No = 2 := by rw [hD]; rfl
  have hty : D.ty = fe.idx := by rw [hD]; rfl
  have hmet : D.A.focMet = .none := by rw [hD]; rfl
  have hap : D.A.doApod = false := by rw [hD]; rfl
  have h0 : rintR (0 : ℝ) = 0 := by simpa using rintR_intCast 0
  refine ⟨⟨fun n _ => ?_, fun h => ?_⟩, by rw [hp]; norm_num, by rw [hp]; norm_num, ⟨?_, ?_⟩, hR, hE, hp, hG,
    hnt, hdel, hobs⟩
  · rw [hG]; exact (hg n).1
  · rw [hap] at h; simp at h
  · intro n hn k hk q hq j hj'
    rw [hNo] at hn
    rw [hobs n hn, hdel, hp, hG] at *
    have hs := disc_fits (g k) 2 2 1000 0 1 0 0 5 (hg k).1 (by norm_num) (by norm_num) (by norm_num)
      (by norm_num) (by norm_num; linarith [(hg k).2]) q j hq hj'
    have hz := arrives_nonneg (discSurf (g k) 2 2) q j rfl
    rw [hty]
    show fe.idx.fits ((discSurf (g k) 2 2).arrives 1000 0 1 0 0 5 q j) = true
    generalize (discSurf (g k) 2 2).arrives 1000 0 1 0 0 5 q j = z at hs hz
    simp only [IdxTy.fits, decide_eq_true_eq] at hs
    cases fe <;> simp only [FrontEnd.idx, IdxTy.fits, decide_eq_true_eq] <;> omega
  · intro n _
    rw [hmet, hp, hty]
    have : annuDelaySpec .none D.A.focal.data D.A.Gr.data D.A.numElements 1000 n = 0 := by
      simp [annuDelaySpec]
    rw [this, zero_div, h0]
    cases fe <;> decide

/-- The radii 1 mm and 100 mm. -/
noncomputable def wideRadii (k : ℕ) : ℝ := if k = 0 then 1 else 100

theorem wideRadii_ok (k : ℕ) : 0 ≤ wideRadii k ∧ wideRadii k ≤ 100 := by
  unfold wideRadii; split <;> norm_num

theorem wide_misses (fe : FrontEnd) (m : ℕ) (lvl : String) (level : ErrorLevel) (D : AnnuCall ℝ)
    (hD : D = ((wideArgs fe m wideRadii lvl).meant exactLib fe 2 8 .none none level).call 0) :
    (∀ n < 2, ¬ D.DiscMisses n 0) ∧ ∀ n < 2, ∀ k, D.DiscMisses n (k + 1) := by
  obtain ⟨-, -, -, -, -, -, hp, hG', hnt, hdel, hobs⟩ := wide_fits fe m wideRadii wideRadii_ok lvl level D hD
  have hG : ∀ k, D.A.Gr.data k = if k = 0 then 1 else 100 := fun k => by rw [hG']; rfl
  constructor
  · rintro n hn ⟨-, q, hq, j, hj', hw⟩
    rw [hobs n hn, hdel, hp] at *
    apply hw
    rw [hG, if_pos rfl, hnt] at *
    have hq0 : q = 0 := by
      have : q < ⌊(2 * 1 / 2 + 1 / 2 : ℝ)⌋₊ := hq
      rw [(Nat.floor_eq_iff (by norm_num)).2 (show ((1 : ℕ) : ℝ) ≤ 2 * 1 / 2 + 1 / 2 ∧ _ by norm_num)] at this
      omega
    subst hq0
    have hc : cell (2 * 1) 2 0 = 0 := by unfold cell; norm_num
    have hh : discHalf 1 2 0 = 1 := by unfold discHalf; rw [hc]; norm_num
    have hj0 : j = 0 := by
      have : j < ⌊(2 * discHalf 1 2 0 / 2 + 1 / 2 : ℝ)⌋₊ := hj'
      rw [hh, (Nat.floor_eq_iff (by norm_num)).2 (show ((1 : ℕ) : ℝ) ≤ 2 * 1 / 2 + 1 / 2 ∧ _ by norm_num)]
        at this
      omega
    subst hj0
    have hdist : (discSurf 1 2 2).dist 0 0 5 0 0 = 5 := by
      unfold Surf.dist
      have hx : (discSurf 1 2 2).x 0 0 = 0 := by
        show cell (2 * discHalf 1 2 0) 2 0 = 0
        rw [hh, hc]
      have hy : (discSurf 1 2 2).y 0 0 = 0 := hc
      have hz : (discSurf 1 2 2).z 0 0 = 0 := rfl
      rw [hx, hy, hz, show ((0 : ℝ) - 0) ^ 2 + (0 - 0) ^ 2 + (5 - 0) ^ 2 = 5 ^ 2 by norm_num,
        Real.sqrt_sq (by norm_num)]
    have ha : (discSurf 1 2 2).arrives 1000 0 1 0 0 5 0 0 = 5 := by
      unfold Surf.arrives arrivalSample
      rw [hdist, show ((5 : ℝ) * 1000 / 1000 - (0 - (discSurf 1 2 2).foc 0 0)) / 1 = ((5 : ℤ) : ℝ) by
        show ((5 : ℝ) * 1000 / 1000 - (0 - 0)) / 1 = _
        norm_num, rintR_intCast]
    unfold Surf.InWindow
    show 0 ≤ (discSurf 1 2 2).arrives 1000 0 1 0 0 5 0 0 ∧ (discSurf 1 2 2).arrives 1000 0 1 0 0 5 0 0 < (8 : ℕ)
    rw [ha]
    norm_num
  · intro n hn k
    refine ⟨fun h => by simp at h, 0, ?_, 0, ?_, ?_⟩
    · rw [hG, hp, if_neg (by norm_num)]
      show 0 < ⌊(2 * 100 / 2 + 1 / 2 : ℝ)⌋₊
      rw [Nat.floor_pos]; norm_num
    · rw [hG, hp, if_neg (by norm_num)]
      show 0 < ⌊(2 * discHalf 100 2 0 / 2 + 1 / 2 : ℝ)⌋₊
      rw [Nat.floor_pos]
      have : 1 ≤ discHalf 100 2 0 := by
        unfold discHalf cell
        rw [Real.one_le_sqrt]
        norm_num
      linarith
    · rw [hobs n hn, hdel, hp, hG, if_neg (by norm_num), hnt]
      have hd : 99 ≤ (discSurf 100 2 2).dist 0 0 5 0 0 := by
        unfold Surf.dist
        have hy : (discSurf 100 2 2).y 0 0 = -99 := by
          show cell (2 * 100) 2 0 = -99
          unfold cell; norm_num
        rw [hy]
        apply Real.le_sqrt_of_sq_le
        nlinarith [sq_nonneg (0 - (discSurf 100 2 2).x 0 0), sq_nonneg (5 - (discSurf 100 2 2).z 0 0)]
      rintro ⟨-, hlt⟩
      have hn' := rintR_near (((discSurf 100 2 2).dist 0 0 5 0 0 * 1000 / 1000 -
        (0 - (discSurf 100 2 2).foc 0 0)) / 1)
      have hlt' : rintR (((discSurf 100 2 2).dist 0 0 5 0 0 * 1000 / 1000 -
        (0 - (discSurf 100 2 2).foc 0 0)) / 1) < ((8 : ℕ) : ℤ) := hlt
      have hfoc : (discSurf 100 2 2).foc 0 0 = 0 := rfl
      rw [hfoc] at hn' hlt'
      generalize rintR (((discSurf 100 2 2).dist 0 0 5 0 0 * 1000 / 1000 - (0 - 0)) / 1) = z at hn' hlt'
      rw [abs_le] at hn'
      have h1 : (98 : ℝ) < z := by linarith [hn'.2]
      have h2 : (98 : ℤ) < z := by exact_mod_cast h1
      omega

/-- C86 at work: MATLAB, Octave and Python accept an even number of radii.  The last radius then bounds no
ring, but the call fails because its disc misses the window, although no contribution of the array does. -/
theorem C86_annu_even_violated (fe : FrontEnd) (hj : fe ≠ .julia) (two : Bool) :
    ∃ D : AnnuCall ℝ, D = ((wideArgs fe 2 wideRadii "stop").meant exactLib fe 2 8 .none none .stop).call 0 ∧
      (∀ n < 2, ∀ k < 2 * D.A.numElements - 1, ¬ D.DiscMisses n k) ∧
      ∀ o, AnnuSees exactLib fe (wideArgs fe 2 wideRadii "stop") two 2 none o ↔ o = .failed true := by
  obtain ⟨g1, g2, g3, g4, g5, g6, -⟩ := wide_fits fe 2 wideRadii wideRadii_ok "stop" .stop _ rfl
  obtain ⟨g7, g8⟩ := wide_misses fe 2 "stop" .stop _ rfl
  refine ⟨_, rfl, fun n hn k hk => ?_, fun o => ?_⟩
  · rw [g6] at hk
    obtain rfl : k = 0 := by omega
    exact g7 n hn
  · rw [C86_annu fe _ (wideArgs_typed fe _ _ _) 2 8 .none none .stop
      (wideArgs_doc fe 2 (by norm_num) _ (.inl hj) _ _ .stop)
      (by cases fe <;> simp [wideArgs, Arg.size, toyShape]) (by cases fe <;> simp [wideArgs, Arg.size]) _ rfl
      g1 g2 g3 g4 two 2 none o, late_threads fe]
    have : AnnuCall.answer (((wideArgs fe 2 wideRadii "stop").meant exactLib fe 2 8 .none none .stop).call 0)
        (arrTail fe two) 2 = .failed true := by
      unfold AnnuCall.answer answerOf
      rw [if_pos ⟨rfl, 0, by norm_num [AnnuFront.call, AnnuArgs.meant],
        .inl ⟨rfl, 1, by rw [g5]; norm_num, g8 0 (by norm_num) 0⟩⟩]
      simp
    simp [this]

/-- C86 at work: three radii, error level warn, two cores, two outputs, in all languages. -/
example (fe : FrontEnd) : ∃ h, ∀ o, AnnuSees exactLib fe (wideArgs fe 3 wideRadii "warn") true 2 none o ↔
    o = .matrix true (if fe = .matlab ∨ fe = .octave then some .warnOutOfBounds else none) 8 2 h := by
  obtain ⟨g1, g2, g3, g4, g5, g6, -⟩ := wide_fits fe 3 wideRadii wideRadii_ok "warn" .warn _ rfl
  obtain ⟨-, g8⟩ := wide_misses fe 3 "warn" .warn _ rfl
  refine ⟨fun i n => if i < 8 ∧ n < 2 then
    (((wideArgs fe 3 wideRadii "warn").meant exactLib fe 2 8 .none none .warn).call 0).heard n i else 0,
    fun o => ?_⟩
  rw [C86_annu_documented fe _ (wideArgs_typed fe _ _ _) 2 8 .none none .warn
      (wideArgs_doc fe 3 (by norm_num) _ (.inr rfl) _ _ .warn)
      (by cases fe <;> simp [wideArgs, Arg.size, toyShape]) (by cases fe <;> simp [wideArgs, Arg.size]) _ rfl
      g1 g2 g3 g4 true 2 none 2 (late_threads fe) le_rfl (by rw [g5, g6])
      (.inr fun n hn _ => by rw [g5]; exact g8 n hn 1) o]
  unfold documentedAnswer
  rw [if_neg (fun h => by cases h.1)]
  have hM : ∃ n < 2, ∃ k < 2 * (((wideArgs fe 3 wideRadii "warn").meant exactLib fe 2 8 .none none .warn).call
      0).A.numElements - 1, (((wideArgs fe 3 wideRadii "warn").meant exactLib fe 2 8 .none none .warn).call
      0).DiscMisses n k := ⟨0, by norm_num, 1, by rw [g6]; norm_num, g8 0 (by norm_num) 0⟩
  have hE := eq_true hM
  simp only [hE]
  simp [codeOf]

/-! ### Imaging: specification -/

/-- Sample index of A-scan `q` for image point `n`. -/
noncomputable def DasCall.sampleIdx (C : DasCall ℝ) (n q : ℕ) : ℤ := truncR (C.dpTime n q * fsKhz C.dt)

/-- An A-scan is too short for image point `n`, or the sample would be before its start. -/
def DasCall.MissesAt (C : DasCall ℝ) (n : ℕ) : Prop :=
  ∃ q < C.scans, ¬ (0 ≤ C.sampleIdx n q ∧ C.sampleIdx n q < (C.len : ℤ))

/-- The image value of point `n`: the sum of one sample of each A-scan. -/
noncomputable def DasCall.pixel (C : DasCall ℝ) (n : ℕ) : ℝ :=
  ∑ q ∈ range C.scans, sampleAt C.Y.data C.len q (C.sampleIdx n q)

/-- SAFT: A-scan `i` at the time to element `i` and back. -/
theorem C86_saft_pixel (C : DasCall ℝ) (hm : C.method = .saft) (n : ℕ) :
    C.pixel n = ∑ i ∈ range C.nt, sampleAt C.Y.data C.len i (saftIndex C.dt C.cp (C.delayAt n)
      (gridDist C.Gt.data C.nt i (C.xo n) (C.yo n) (C.zo n))) := by
  unfold DasCall.pixel DasCall.sampleIdx DasCall.scans
  rw [if_pos hm]
  simp only [DasCall.dpTime_saft hm]

/-- TFM: the A-scan of elements `i` and `j` at the time from `i` to the point and on to `j`. -/
theorem C86_tfm_pixel (C : DasCall ℝ) (hm : C.method = .tfm) (n : ℕ) :
    C.pixel n = ∑ i ∈ range C.nt, ∑ j ∈ range C.nr, sampleAt C.Y.data C.len (i * C.nr + j)
      (tfmIndex C.dt C.cp (C.delayAt n)
        (gridDist C.Gt.data C.nt i (C.xo n) (C.yo n) (C.zo n))
        (gridDist C.Gr.data C.nr j (C.xo n) (C.yo n) (C.zo n))) := by
  have hp := DasCall.nr_pos (C := C) (by rw [hm]; simp)
  rw [← sum_pairs _ C.nt C.nr hp]
  unfold DasCall.pixel DasCall.sampleIdx DasCall.scans
  rw [if_neg (by rw [hm]; simp)]
  refine Finset.sum_congr rfl fun q hq => ?_
  rw [DasCall.dpTime_tfm hm]
  congr 1
  rw [Nat.mul_comm, Nat.div_add_mod]

/-- Row-column arrays with as many rows as columns: the times of the ideal stripes. -/
theorem C86_square_pixel (C : DasCall ℝ) (hsq : C.nt = C.nr) (hpos : 1 ≤ C.nt) (n : ℕ) :
    C.pixel n = ∑ q ∈ range C.scans, sampleAt C.Y.data C.len q
      (truncR (C.rightTime n q * fsKhz C.dt)) := by
  unfold DasCall.pixel DasCall.sampleIdx
  simp only [(C32_square (C := C) hsq hpos).2]

/-! ### Imaging: one point -/

open Classical in
theorem DasCall.serial_heard (C : DasCall ℝ) (Im : Buf ℝ) (h : C.Sized Im) (hr : C.Reads) (hf : C.Fits)
    (n : ℕ) (hn : n < C.No) :
    ∃ fuel Im', C.drv.serialAt n fuel Im = .ok (Im', if C.MissesAt n then codeOf C.level else .none) ∧
      ((if C.MissesAt n then codeOf C.level else .none) ≠ SIRError.outOfBounds →
        ∀ i, i < C.drv.len → Im'.data (C.drv.base n + i) = C.pixel n) := by
  obtain ⟨Im', e, h1, -, -, h2, h3, h4⟩ := C30_pixel h hr n hn _ (DasCall.index_of_fits hf n hn) 0
  have hacc : C.toDasData.acc (fun q => truncR (C.dpTime n q * fsKhz C.dt)) C.scans = C.pixel n := by
    rw [DasData.acc_real]; rfl
  have hbase : ∀ i, i < C.drv.len → C.drv.base n + i = n := by
    intro i hi
    have : i < 1 := hi
    have hb : C.drv.base n = n := rfl
    omega
  refine ⟨0, Im', ?_, fun hne i hi => ?_⟩
  · rw [h1]
    congr 2
    by_cases hM : C.MissesAt n
    · rw [if_pos hM]
      have hex : ∃ q, q < C.scans ∧ ¬ C.toDasData.hit (fun q => truncR (C.dpTime n q * fsKhz C.dt)) q := hM
      by_cases hl : codeOf C.level = .outOfBounds
      · have hs := Nat.find_spec hex
        rw [(h4 hl (Nat.find hex) hs.1 hs.2 (fun i hi => by
          by_contra hh
          exact Nat.find_min hex hi ⟨by omega, hh⟩)).2, hl]
      · exact (h3 hl hex).2
    · rw [if_neg hM]
      refine (h2 fun q hq => ?_).2
      by_contra hh
      exact hM ⟨q, hq, hh⟩
  · rw [hbase i hi, ← hacc]
    by_cases hM : C.MissesAt n
    · rw [if_pos hM] at hne
      exact (h3 hne hM).1
    · refine (h2 fun q hq => ?_).1
      by_contra hh
      exact hM ⟨q, hq, hh⟩

/-! ### Imaging: whole calls -/

/-- The answer to a call of `das` on the CPU with `nth` workers: a column of `No` numbers. -/
noncomputable def DasCall.answer (C : DasCall ℝ) (T : Tail) (nth : ℕ) : Seen ℝ :=
  answerOf C.level C.No 1 T nth (∃ n < C.No, C.MissesAt n) (fun _ i => C.pixel i)

theorem answerOf_transpose (level : ErrorLevel) (rows cols : ℕ) (T : Tail) (nth : ℕ) (M : Prop)
    (h : ℕ → ℕ → ℝ) : (answerOf level rows cols T nth M h).transpose =
      answerOf level cols rows T nth M (fun n i => h i n) := by
  unfold answerOf
  split
  · rfl
  · simp only [Seen.transpose]
    congr 1
    funext i n
    simp only [and_comm]

/-- C86, imaging: after any session of calls, a double precision call (in Python and Julia also a single
precision one) that is accepted and runs on the CPU, with a non-empty delay, enough A-scans, grids of a
shape that the method reads inside and sample indices that the index type can hold, and nobody pressing
CTRL-C, is the call its arguments describe, and exactly one thing can happen, whatever the schedule of the
workers and whatever the image memory holds before. -/
theorem C86_das (fe : FrontEnd) (opencl ok : Bool) (hist : List (Bool × DasArgs ℝ)) (x : DasArgs ℝ)
    (ht : x.Typed fe) (hd : x.single = false ∨ ¬ fe.mo) (j : DasJob ℝ)
    (hj : frontDas fe x = .ok (.call j)) (hg : ¬ (opencl = true ∧ j.device = "gpu"))
    (hmem : fe = .octave → x.shared = true ∧ x.delayShared = true)
    (hde : 1 ≤ x.delay.size) (n : ℕ) (hn : x.y.shape = [j.call.len, n]) (hc : j.call.scans ≤ n)
    (hr : j.call.Reads) (hf : j.call.Fits) (two : Bool) (hw : ℕ) (env : Option String) :
    DasAsked fe x j ∧ ∀ o, DasSees fe opencl hist (ok, x) two hw env o ↔
      o = ((chooseThreads fe.idx.cnt hw env j.call.No).map fun nth =>
        j.call.answer (arrTail fe two) nth).getD .thrown := by
  obtain ⟨hcpu, hask⟩ := C55_cpu fe opencl ok hist x ht hd j hj hg
  refine ⟨hask, fun o => ?_⟩
  have hlev : j.call.level = .ignore ∨ j.call.level = .warn ∨ j.call.level = .stop := by
    have hl := hask.level
    unfold LevelAsked at hl
    cases ho : x.opts[0]? with
    | none => rw [ho] at hl; exact .inr (.inr hl)
    | some a =>
      rw [ho] at hl
      obtain ⟨s, -, hs⟩ := hl
      exact errArg_levels (.inr ⟨s, rfl, hs⟩)
  have key : ∀ Im : Buf ℝ, Im.size = j.call.No → ∀ o, j.call.drv.Sees (arrTail fe two) j.call.ty.cnt hw env Im o ↔
      o = ((chooseThreads fe.idx.cnt hw env j.call.No).map fun nth =>
        answerOf j.call.level 1 j.call.No (arrTail fe two) nth (∃ n < j.call.No, j.call.MissesAt n)
          (fun n _ => j.call.pixel n)).getD .thrown := by
    intro Im hIm o
    have hsz := C58_sized fe x ht j hj hmem hde n hn hc Im hIm
    have hfa := DasCall.faithful hsz hr fun n hn => ⟨_, DasCall.index_of_fits hf n hn⟩
    have key := Drv.sees_iff (D := j.call.drv) (m := Im) (arrTail fe two) hfa
      (open Classical in fun n => if j.call.MissesAt n then codeOf j.call.level else .none)
      (fun n _ => j.call.pixel n)
      (fun n hn => j.call.serial_heard Im hsz hr hf n hn) j.call.ty.cnt hw env o
    have hans : ∀ nth, j.call.drv.expected (arrTail fe two) nth
        (open Classical in fun n => if j.call.MissesAt n then codeOf j.call.level else .none)
        (fun n _ => j.call.pixel n) = answerOf j.call.level 1 j.call.No (arrTail fe two) nth
          (∃ n < j.call.No, j.call.MissesAt n) (fun n _ => j.call.pixel n) := fun nth =>
      j.call.drv.expected_answer (arrTail fe two) nth hlev j.call.MissesAt (fun n _ => j.call.pixel n)
    simp only [hans] at key
    rw [hask.ty] at key ⊢
    exact key
  have htr : ∀ c : Option ℕ, ((c.map fun nth =>
        answerOf j.call.level 1 j.call.No (arrTail fe two) nth (∃ n < j.call.No, j.call.MissesAt n)
          (fun n _ => j.call.pixel n)).getD .thrown).transpose =
      ((c.map fun nth => j.call.answer (arrTail fe two) nth).getD .thrown) := by
    intro c
    cases c with
    | none => rfl
    | some nth => exact answerOf_transpose _ _ _ _ _ _ _
  constructor
  · intro hsee
    cases hsee with
    | refused b h' => rw [hcpu] at h'; simp at h'
    | undefined h' => exact absurd hcpu (h' _)
    | called C' h' Im hIm o hs' =>
      rw [hcpu] at h'
      obtain rfl : j.call = C' := by simpa using h'
      rw [(key Im hIm o).1 hs', htr]
  · intro ho
    rw [ho, ← htr]
    exact .called _ hcpu ⟨j.call.No, fun _ => 0⟩ rfl _ ((key _ rfl _).2 rfl)

/-- C86, imaging: with at least two workers the call gives the documented answer. -/
theorem C86_das_documented (fe : FrontEnd) (opencl ok : Bool) (hist : List (Bool × DasArgs ℝ)) (x : DasArgs ℝ)
    (ht : x.Typed fe) (hd : x.single = false ∨ ¬ fe.mo) (j : DasJob ℝ)
    (hj : frontDas fe x = .ok (.call j)) (hg : ¬ (opencl = true ∧ j.device = "gpu"))
    (hmem : fe = .octave → x.shared = true ∧ x.delayShared = true)
    (hde : 1 ≤ x.delay.size) (n : ℕ) (hn : x.y.shape = [j.call.len, n]) (hc : j.call.scans ≤ n)
    (hr : j.call.Reads) (hf : j.call.Fits) (two : Bool) (hw : ℕ) (env : Option String) (nth : ℕ)
    (hth : chooseThreads fe.idx.cnt hw env j.call.No = some nth) (h2 : 2 ≤ nth) (o : Seen ℝ) :
    DasSees fe opencl hist (ok, x) two hw env o ↔
      o = documentedAnswer j.call.level j.call.No 1 (two && decide (fe = .matlab ∨ fe = .octave))
        (∃ n < j.call.No, j.call.MissesAt n) (fun _ i => j.call.pixel i) := by
  rw [(C86_das fe opencl ok hist x ht hd j hj hg hmem hde n hn hc hr hf two hw env).2 o, hth]
  simp only [Option.map_some, Option.getD_some]
  unfold DasCall.answer answerOf documentedAnswer
  have t1 : (arrTail fe two).sphere = false := rfl
  have t2 : (arrTail fe two).warns = true := rfl
  have t3 : (arrTail fe two).second = (two && decide (fe = .matlab ∨ fe = .octave)) := rfl
  rw [t1, t2, t3]
  generalize (∃ n < j.call.No, j.call.MissesAt n) = M
  by_cases hM' : M <;> simp [hM', h2]

/-- C86, imaging: with one worker no A-scan that is too short gives a warning or a second output, and under
error level stop the message is about CTRL-C. -/
theorem C86_das_one_worker_violated (fe : FrontEnd) (opencl ok : Bool) (hist : List (Bool × DasArgs ℝ))
    (x : DasArgs ℝ) (ht : x.Typed fe) (hd : x.single = false ∨ ¬ fe.mo) (j : DasJob ℝ)
    (hj : frontDas fe x = .ok (.call j)) (hg : ¬ (opencl = true ∧ j.device = "gpu"))
    (hmem : fe = .octave → x.shared = true ∧ x.delayShared = true)
    (hde : 1 ≤ x.delay.size) (n : ℕ) (hn : x.y.shape = [j.call.len, n]) (hc : j.call.scans ≤ n)
    (hr : j.call.Reads) (hf : j.call.Fits) (two : Bool) (hw : ℕ) (env : Option String)
    (hth : chooseThreads fe.idx.cnt hw env j.call.No = some 1) (hM : ∃ n < j.call.No, j.call.MissesAt n)
    (o : Seen ℝ) :
    DasSees fe opencl hist (ok, x) two hw env o ↔
      o = if j.call.level = .stop then .failed false
        else .matrix false (if (two && decide (fe = .matlab ∨ fe = .octave)) = true then some .none else none)
          j.call.No 1 (fun i n => if i < j.call.No ∧ n < 1 then j.call.pixel i else 0) := by
  rw [(C86_das fe opencl ok hist x ht hd j hj hg hmem hde n hn hc hr hf two hw env).2 o, hth]
  simp only [Option.map_some, Option.getD_some]
  unfold DasCall.answer answerOf
  by_cases hl : j.call.level = .stop <;> simp [arrTail, hl, hM]

/-! ### Non-vacuity: two image points, two elements -/

/-- Two elements at x = 0 and 6 mm, `No` image points 8 mm in front of the origin, A-scans of `len` samples
with all values 1, sampling interval 1 ms, 1 m/s. -/
@[reducible] noncomputable def saftArgs (fe : FrontEnd) (len No : ℕ) (lvl : String) : DasArgs ℝ where
  y := ⟨[len, 2], fun _ => 1⟩
  gt := ⟨[2, 3], fun i => if i = 1 then 6 else 0⟩
  gr := ⟨if fe.mo then [0, 0] else [0, 3], fun _ => 0⟩
  ro := ⟨[No, 3], fun i => if 2 * No ≤ i then 8 else 0⟩
  dt := ⟨[1, 1], fun _ => 1000⟩
  delay := ⟨if fe = .julia then [1] else [1, 1], fun _ => 0⟩
  cp := ⟨[1, 1], fun _ => 1⟩
  method := .text "saft"
  opts := if fe.mo then [.text lvl] else [.text lvl, .text "cpu", .text ""]
  single := false
  sameType := true
  shared := true
  delayShared := true

theorem saftArgs_typed (fe : FrontEnd) (len No : ℕ) (lvl : String) : (saftArgs fe len No lvl).Typed fe where
  y := ⟨_, _, rfl⟩
  gt := ⟨_, _, rfl⟩
  gr := by cases fe <;> exact ⟨_, _, rfl⟩
  ro := ⟨_, _, rfl⟩
  dt _ := ⟨_, _, rfl⟩
  cp _ := ⟨_, _, rfl⟩
  delay := by cases fe; exacts [⟨_, _, rfl⟩, ⟨_, _, rfl⟩, ⟨_, _, rfl⟩, ⟨_, rfl⟩]
  opts := fun h => by
    refine ⟨lvl, "cpu", "", ?_⟩
    simp [h]

theorem saftArgs_doc (fe : FrontEnd) (len No : ℕ) (lvl : String) (level : ErrorLevel)
    (hl : ErrName lvl level) : DasDoc fe (saftArgs fe len No lvl) where
  y := ⟨_, _, rfl⟩
  gt := ⟨_, rfl⟩
  ro := ⟨_, rfl, .inl (by cases fe <;> rfl)⟩
  delay := by cases fe; exacts [⟨_, _, rfl⟩, ⟨_, _, rfl⟩, ⟨_, _, rfl⟩, ⟨_, rfl⟩]
  method := ⟨_, _, rfl, .saft, by
    by_cases h : fe.mo
    · exact .inr (.inl ⟨h, by simp [h]⟩)
    · exact .inr (.inr ⟨h, rfl⟩)⟩
  level := by
    intro a h
    have : a = .text lvl := by cases fe <;> simpa [FrontEnd.mo] using h.symm
    exact ⟨lvl, level, this, hl⟩
  scalars _ := ⟨rfl, rfl, rfl⟩
  opts := by
    by_cases h : fe.mo
    · rw [if_pos h]; simp [h]
    · rw [if_neg h]; exact ⟨lvl, "cpu", "", by simp [h], by decide⟩

/-- What the example is asked to compute. -/
theorem saft_job (fe : FrontEnd) (len No : ℕ) (lvl : String) (level : ErrorLevel) (hl : ErrName lvl level) :
    ∃ j, frontDas fe (saftArgs fe len No lvl) = .ok (.call j) ∧ j.device ≠ "gpu" ∧
      j.call.method = .saft ∧ j.call.scans = 2 ∧ j.call.len = len ∧ j.call.No = No ∧ j.call.level = level ∧
      j.call.ty = fe.idx ∧ (∀ i, j.call.Y.data i = 1) ∧
      ∀ n < No, ∀ q < 2, j.call.sampleIdx n q = if q = 0 then 16 else 20 := by
  obtain ⟨j, hj⟩ := C57_accepted fe _ (saftArgs_doc fe len No lvl level hl)
  have ha := (C55_cpu fe false true [] _ (saftArgs_typed fe len No lvl) (.inl rfl) j hj (by simp)).2
  have hm : j.call.method = .saft := by
    obtain ⟨s, h1, h2⟩ := ha.method
    have : s = "saft" := by simpa using h1.symm
    subst this
    have : j.call.dasType = .saft := by
      generalize j.call.dasType = t at h2
      generalize e : "saft" = u at h2
      cases h2 <;> simp_all
    simp [DasCall.method, this]
  have hp := frontDas_call (saftArgs_typed fe len No lvl) hj
  have hdev : j.device ≠ "gpu" := by
    by_cases h : fe.mo
    · rw [hp.device, if_pos h]
      simp [h]
    · exact hp.noGpu h
  have hlen : j.call.len = len := by
    obtain ⟨n, hn⟩ := ha.y
    simp at hn
    exact hn.1.symm
  have hNo : j.call.No = No := by
    have := ha.ro
    simp at this
    exact this.symm
  have hnt : j.call.nt = 2 := by
    have := ha.gt
    simp at this
    exact this.symm
  have hlev : j.call.level = level := by
    have h1 : (saftArgs fe len No lvl).opts[0]? = some (.text lvl) := by
      cases fe <;> simp [FrontEnd.mo]
    have h2 := ha.level
    rw [h1] at h2
    obtain ⟨s, h3, h4⟩ := h2
    have : s = lvl := by simpa using h3.symm
    subst this
    have e1 := (C35_error_names _ _).2 h4
    have e2 := (C35_error_names _ _).2 hl
    rw [e1] at e2
    simpa using e2
  have hsc : j.call.scans = 2 := by
    unfold DasCall.scans
    rw [if_pos hm, hnt]
  refine ⟨j, hj, hdev, hm, hsc, hlen, hNo, hlev, ha.ty, fun i => by rw [ha.yData], fun n hn q hq => ?_⟩
  unfold DasCall.sampleIdx
  rw [DasCall.dpTime_saft hm]
  have hd : gridDist j.call.Gt.data j.call.nt q (j.call.xo n) (j.call.yo n) (j.call.zo n) =
      if q = 0 then 8 else 10 := by
    rw [← exDas_dist q hq, hnt]
    have h1 : j.call.xo n = 0 := by
      simp only [DasCall.xo, ha.roData]
      rw [if_neg (by omega)]
    have h2 : j.call.yo n = 0 := by
      simp only [DasCall.yo, ha.roData, hNo]
      rw [if_neg (by omega)]
    have h3 : j.call.zo n = 8 := by
      simp only [DasCall.zo, ha.roData, hNo]
      rw [if_pos (by omega)]
    rw [h1, h2, h3]
    unfold gridDist
    rw [ha.gtData]
  have hdel : j.call.delayAt n = 0 := by
    unfold DasCall.delayAt
    rw [ha.delayData]
    cases j.call.delayType <;> rfl
  rw [hd, hdel, ha.dt, ha.cp]
  unfold saftIndex
  by_cases h0 : q = 0
  · rw [if_pos h0, if_pos h0]
    exact truncR_nat 16 (by norm_num)
  · rw [if_neg h0, if_neg h0]
    exact truncR_nat 20 (by norm_num)

/-- C86 at work: after any session, error level warn, two image points, two cores, two outputs, in all
languages and builds.  The times to the two elements and back are 16 and 20 samples. -/
theorem C86_das_example (fe : FrontEnd) (opencl ok : Bool) (hist : List (Bool × DasArgs ℝ)) (len : ℕ)
    (o : Seen ℝ) :
    DasSees fe opencl hist (ok, saftArgs fe len 2 "warn") true 2 none o ↔
      o = .matrix (decide (len ≤ 20))
        (if fe = .matlab ∨ fe = .octave then some (if len ≤ 20 then .warnOutOfBounds else .none) else none)
        2 1 (fun i n => if i < 2 ∧ n < 1 then (if len ≤ 16 then 0 else if len ≤ 20 then 1 else 2) else 0) := by
  obtain ⟨j, hj, hdev, hm, hsc, hlen, hNo, hlev, hty, hY, hidx⟩ := saft_job fe len 2 "warn" .warn .warn
  have hf : j.call.Fits := by
    intro n hn q hq
    rw [hNo] at hn
    rw [hsc] at hq
    have h := hidx n hn q hq
    unfold DasCall.sampleIdx at h
    rw [h, hty]
    by_cases h0 : q = 0
    · rw [if_pos h0]; cases fe <;> decide
    · rw [if_neg h0]; cases fe <;> decide
  have hM : (∃ n < 2, j.call.MissesAt n) ↔ len ≤ 20 := by
    unfold DasCall.MissesAt
    rw [hsc, hlen]
    constructor
    · rintro ⟨n, hn, q, hq, h⟩
      rw [hidx n hn q hq] at h
      by_contra hl
      by_cases h0 : q = 0
      · rw [if_pos h0] at h; omega
      · rw [if_neg h0] at h; omega
    · intro hl
      refine ⟨0, by norm_num, 1, by norm_num, ?_⟩
      rw [hidx 0 (by norm_num) 1 (by norm_num), if_neg (by norm_num)]
      omega
  have hpix : ∀ n < 2, j.call.pixel n = if len ≤ 16 then 0 else if len ≤ 20 then 1 else 2 := by
    intro n hn
    have a0 : sampleAt j.call.Y.data j.call.len 0 (j.call.sampleIdx n 0) = if 16 < len then 1 else 0 := by
      rw [hidx n hn 0 (by norm_num), hlen, if_pos rfl]
      simp only [sampleAt, hY]
      by_cases h : 16 < len
      · rw [if_pos h, if_pos (by omega)]
      · rw [if_neg h, if_neg (by omega)]
    have a1 : sampleAt j.call.Y.data j.call.len 1 (j.call.sampleIdx n 1) = if 20 < len then 1 else 0 := by
      rw [hidx n hn 1 (by norm_num), hlen, if_neg (by norm_num)]
      simp only [sampleAt, hY]
      by_cases h : 20 < len
      · rw [if_pos h, if_pos (by omega)]
      · rw [if_neg h, if_neg (by omega)]
    unfold DasCall.pixel
    rw [hsc, Finset.sum_range_succ, Finset.sum_range_succ, Finset.sum_range_zero, a0, a1]
    by_cases h1 : len ≤ 16
    · rw [if_pos h1, if_neg (show ¬ 16 < len by omega), if_neg (show ¬ 20 < len by omega)]; norm_num
    · by_cases h2 : len ≤ 20
      · rw [if_neg h1, if_pos h2, if_pos (show 16 < len by omega), if_neg (show ¬ 20 < len by omega)]; norm_num
      · rw [if_neg h1, if_neg h2, if_pos (show 16 < len by omega), if_pos (show 20 < len by omega)]; norm_num
  rw [C86_das_documented fe opencl ok hist _ (saftArgs_typed fe len 2 "warn") (.inl rfl) j hj
    (fun h => hdev h.2) (fun _ => ⟨rfl, rfl⟩) (by cases fe <;> simp [Arg.size]) 2 (by rw [hlen]) hsc.le
    (.inl hm) hf true 2 none 2 (by rw [hNo]; exact late_threads fe) le_rfl o, hNo, hlev]
  unfold documentedAnswer
  rw [if_neg (fun h => by cases h.1)]
  have hE := propext hM
  simp only [hE, true_and]
  constructor
  all_goals
    rintro rfl
    congr 1
    · simp [codeOf]
    · funext i n
      by_cases h : i < 2 ∧ n < 1
      · rw [if_pos h, if_pos h, hpix i h.1]
      · rw [if_neg h, if_neg h]

end Dream
