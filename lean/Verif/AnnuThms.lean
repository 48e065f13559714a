import Verif.Annu
import Verif.ClaimsArr

namespace Dream
open Arith

variable {F : Type} [Arith F]

/-! ### C21: superposition of one ring -/

omit [Arith F] in
theorem Buf.read_nat (b : Buf F) (i : Nat) (h : i < b.size) : b.read (i : Int) = .ok (b.data i) := by
  simp only [Buf.read]; rw [if_pos (by omega)]; simp

theorem shiftedRing_ok (ty : IdxTy) (hring : Buf F) (nt : Nat) (foc dt : F) (n : Nat)
    (hsz : (n + 1) * nt ≤ hring.size) (q : Int) (hq : castIdx ty (rint (foc /. dt)) = .ok q)
    (h1 : -1 ≤ q) :
    ∃ buf, shiftedRing ty hring nt foc dt n = .ok buf ∧ buf.size = 2 * nt ∧
      ∀ i, i < nt → buf.data i =
        if q + 1 ≤ (i : Int) then hring.data (n * nt + (i - (q + 1).toNat)) else lit 0 := by
  unfold shiftedRing
  rw [hq]
  simp only [Outcome.bind]
  have hsz' : n * nt + nt ≤ hring.size := by rw [Nat.add_mul, Nat.one_mul] at hsz; exact hsz
  obtain ⟨buf, g1, g2, g3⟩ := forO_ok
    (fun i (buf : Buf F) => if q + 1 < (nt : Int) then
      (hring.read ((i + n * nt : Nat) : Int)).bind fun x => buf.write ((i : Int) + (q + 1)) x
      else .ok buf)
    (fun j buf => buf.size = 2 * nt ∧ ∀ i : Nat, buf.data i =
      if q + 1 < (nt : Int) ∧ q + 1 ≤ (i : Int) ∧ (i : Int) < q + 1 + j then
        hring.data (n * nt + (i - (q + 1).toNat)) else lit 0) nt 0
    { size := 2 * nt, data := fun _ => lit 0 }
    (by
      intro j _ hj buf hbuf
      by_cases hlt : q + 1 < (nt : Int)
      · simp only [if_pos hlt]
        rw [Buf.read_nat _ _ (by omega)]
        simp only [Outcome.bind, Buf.write]
        rw [if_pos (by rw [hbuf.1]; omega)]
        refine ⟨_, rfl, hbuf.1, fun i => ?_⟩
        simp only
        by_cases hi : i = ((j : Int) + (q + 1)).toNat
        · rw [if_pos hi, if_pos (by omega)]
          congr 1; omega
        · rw [if_neg hi, hbuf.2 i]
          by_cases h3 : q + 1 < (nt : Int) ∧ q + 1 ≤ (i : Int) ∧ (i : Int) < q + 1 + j
          · rw [if_pos h3, if_pos (by omega)]
          · rw [if_neg h3, if_neg (by omega)]
      · simp only [if_neg hlt]
        refine ⟨buf, rfl, hbuf.1, fun i => ?_⟩
        rw [hbuf.2 i, if_neg (by omega), if_neg (by omega)])
    ⟨rfl, fun i => by rw [if_neg (by omega)]⟩
  refine ⟨buf, g1, g2, fun i hi => ?_⟩
  rw [g3 i]
  by_cases h3 : q + 1 ≤ (i : Int)
  · rw [if_pos h3, if_pos (by omega)]
  · rw [if_neg h3, if_neg (by omega)]

/-- C21: with a delay index that is not negative, adding a ring stays inside the column and its
buffers: sample `i` gets the weighted ring sample `i - k` where `k = rint(delay/dt) + 1` is the
delay index, samples pushed past the end are dropped. -/
theorem C21_superpos (ty : IdxTy) (hring : Buf F) (nt : Nat) (w foc : F) (n : Nat) (dt : F)
    (hsz : (n + 1) * nt ≤ hring.size) (q : Int) (hq : castIdx ty (rint (foc /. dt)) = .ok q)
    (h1 : 0 ≤ q + 1) (c : Nat → F) :
    (superposAnnular ty hring nt w foc n dt).runCol nt c =
      .ok ((fun i => if i < nt then
        c i +. w *. (if q + 1 ≤ (i : Int) then hring.data (n * nt + (i - (q + 1).toNat)) else lit 0)
        else c i), ()) := by
  obtain ⟨buf, g1, g2, g3⟩ := shiftedRing_ok ty hring nt foc dt n hsz q hq (by omega)
  unfold superposAnnular
  rw [Prog.runCol_bind, Prog.runCol_lift, g1]
  simp only [Outcome.map, Outcome.bind]
  rw [Prog.forN_pointwise nt nt _ (fun i y => y +. w *. buf.data i)]
  · congr 2
    funext i
    by_cases hi : i < nt
    · rw [if_pos hi, if_pos hi, g3 i hi]
    · rw [if_neg hi, if_neg hi]
  · intro i hi c
    rw [Prog.runCol_bind, Prog.runCol_lift, Buf.read_nat _ _ (by omega)]
    simp only [Outcome.map, Outcome.bind, Prog.runCol]
    rw [if_pos (by omega), if_pos (by omega)]
    simp

/-- C21: a negative delay index writes in front of the buffer, whatever the ring response is. -/
theorem C21_negative_unsafe (ty : IdxTy) (hring : Buf F) (nt : Nat) (hnt : 0 < nt) (w foc : F)
    (n : Nat) (dt : F) (hsz : (n + 1) * nt ≤ hring.size) (q : Int)
    (hq : castIdx ty (rint (foc /. dt)) = .ok q) (h1 : q + 1 < 0) (c : Nat → F) :
    (superposAnnular ty hring nt w foc n dt).runCol nt c = .ub .oob := by
  have hsz' : n * nt + nt ≤ hring.size := by rw [Nat.add_mul, Nat.one_mul] at hsz; exact hsz
  have : shiftedRing ty hring nt foc dt n = .ub .oob := by
    unfold shiftedRing
    rw [hq]
    simp only [Outcome.bind]
    obtain ⟨k, rfl⟩ : ∃ k, nt = k + 1 := ⟨nt - 1, by omega⟩
    simp only [forO]
    rw [if_pos (by omega), Buf.read_nat _ _ (by omega)]
    simp only [Outcome.bind, Buf.write]
    rw [if_neg (by omega)]
  unfold superposAnnular
  rw [Prog.runCol_bind, Prog.runCol_lift, this]
  rfl

/-! ### C22: the whole serial function -/

/-- Sizes the argument checks are meant to ensure: the vectors are at least as long as the loops need. -/
structure AnnuPar.Sized (A : AnnuPar F) : Prop where
  radii : 1 ≤ A.numRadii
  gr : A.numRadii ≤ A.Gr.size
  focal : if A.focMet = .ud then A.numElements ≤ A.focal.size else 1 ≤ A.focal.size
  apod : A.doApod = true → A.apodMet = .ud → A.numElements ≤ A.apod.size

/-- Zero filled memory of `n` samples. -/
def zeros (F : Type) [Arith F] (n : Nat) : Buf F := { size := n, data := fun _ => lit 0 }

/-- `d` is the response of the full disc with radius number `n`, computed on its own into zero
filled memory by the circular transducer's function, `code` its error code.  A first radius that
is zero (below machine epsilon) stands for "no inner disc": zero response, no error. -/
def AnnuPar.DiscIs (A : AnnuPar F) (nt : Nat) (ty : IdxTy) (level : ErrorLevel)
    (att : Option (AttResp F)) (p : Par F) (xo yo zo : F) (fuel n : Nat) (d : Buf F)
    (code : SIRError) : Prop :=
  if n = 0 ∧ le (A.Gr.data 0) epsilon = true then d = zeros F nt ∧ code = .none
  else dreamcircSerial nt ty level att p (lit 1) xo yo zo (A.Gr.data n) fuel 0 (zeros F nt)
    = .ok (d, code)

/-- The response of a disc computed into a zero column of a larger buffer. -/
theorem disc_in (nt : Nat) (ty : IdxTy) (level : ErrorLevel) (att : Option (AttResp F))
    (p : Par F) (xo yo zo R : F) (fuel base : Nat) (h : Buf F) (hb : base + nt ≤ h.size)
    (hz : ∀ i, i < nt → h.data (base + i) = lit 0) (d : Buf F) (code : SIRError)
    (hd : dreamcircSerial nt ty level att p (lit 1) xo yo zo R fuel 0 (zeros F nt)
      = .ok (d, code)) :
    dreamcircSerial nt ty level att p (lit 1) xo yo zo R fuel base h
      = .ok (h.setCol base nt d.data, code) := by
  have e1 := Kern.serial_eq (Kern.circ (lit 1) R) nt ty level att p xo yo zo fuel 0 (zeros F nt)
    (by simp [zeros])
  have e2 := Kern.serial_eq (Kern.circ (lit 1) R) nt ty level att p xo yo zo fuel base h hb
  simp only [Kern.serial] at e1 e2
  rw [hd] at e1
  rw [e2]
  have hc1 : (zeros F nt).getCol 0 nt = fun _ => lit 0 := by
    funext i; simp [Buf.getCol, zeros]
  have hc2 : h.getCol base nt = fun _ => lit 0 := by
    funext i
    simp only [Buf.getCol]
    split
    · next hi => exact hz i hi
    · rfl
  rw [hc1] at e1
  rw [hc2]
  cases ho : (Kern.circ (lit 1) R).onCol nt ty level att p xo yo zo fuel (fun _ => lit 0) with
  | ub _ => rw [ho] at e1; simp at e1
  | fuel => rw [ho] at e1; simp at e1
  | ok s =>
    rw [ho] at e1
    simp only [Outcome.map, liftS, Outcome.ok.injEq, Prod.mk.injEq] at e1
    obtain ⟨rfl, rfl⟩ := e1
    simp only [Outcome.map, liftS]
    congr 2
    simp only [Buf.setCol]
    congr 1
    funext i
    by_cases hi : base ≤ i ∧ i < base + nt
    · rw [if_pos hi, if_pos hi, if_pos (by omega)]; rfl
    · rw [if_neg hi, if_neg hi]

/-- The loop over the discs fills `h_disc` with the disc responses. -/
theorem annuDiscs_ok (A : AnnuPar F) (hA : A.Sized) (nt : Nat) (ty : IdxTy)
    (level : ErrorLevel) (att : Option (AttResp F)) (p : Par F) (xo yo zo : F) (fuel : Nat)
    (disc : Nat → Buf F) (code : Nat → SIRError)
    (hd : ∀ n, n < A.numRadii → A.DiscIs nt ty level att p xo yo zo fuel n (disc n) (code n))
    (hc : ∀ n, n < A.numRadii → code n ≠ .outOfBounds) :
    ∀ (k n : Nat) (h : Buf F) (e : SIRError), n + k = A.numRadii → h.size = nt * A.numRadii →
    (n = 0 → e = .none) →
    (∀ j, j < n → ∀ i, i < nt → h.data (j * nt + i) = (disc j).data i) →
    (∀ j, n ≤ j → ∀ i, i < nt → h.data (j * nt + i) = lit 0) →
    ∃ h', annuDiscs A nt ty level att p xo yo zo fuel k n (h, e) =
        .ok (h', if k = 0 then e else code (A.numRadii - 1)) ∧ h'.size = nt * A.numRadii ∧
      ∀ j, j < A.numRadii → ∀ i, i < nt → h'.data (j * nt + i) = (disc j).data i := by
  intro k
  induction k with
  | zero =>
    intro n h e hn hs _ h1 _
    exact ⟨h, rfl, hs, fun j hj => h1 j (by omega)⟩
  | succ k ih =>
    intro n h e hn hs he h1 h2
    have hin : n * nt + nt ≤ h.size := by
      have : (n + 1) * nt ≤ A.numRadii * nt := Nat.mul_le_mul_right _ (by omega)
      rw [Nat.add_mul, Nat.one_mul] at this
      rw [hs, Nat.mul_comm nt]
      exact this
    have hstep : annuDisc A nt ty level att p xo yo zo fuel n (h, e) =
        .ok (h.setCol (n * nt) nt (disc n).data, code n) := by
      unfold annuDisc
      rw [Buf.read_nat _ _ (by have := hA.gr; omega)]
      simp only [Outcome.bind]
      have hdn := hd n (by omega)
      unfold AnnuPar.DiscIs at hdn
      by_cases h0 : n = 0 ∧ le (A.Gr.data 0) epsilon = true
      · rw [if_pos h0] at hdn
        rw [if_pos (by rw [h0.1]; exact ⟨rfl, h0.2⟩)]
        have hn0 := h0.1
        subst hn0
        have := clearCol_setCol h 0 nt (h.getCol 0 nt) (by omega) nt (Nat.le_refl _)
        rw [Buf.setCol_getCol] at this
        rw [this]
        simp only [Outcome.map, hdn.1, hdn.2, he rfl]
        congr 2
        simp only [Buf.setCol, zeros]
        congr 1
        funext i
        by_cases hi : 0 * nt ≤ i ∧ i < 0 * nt + nt
        · rw [if_pos (by omega), if_pos hi, if_pos (by omega)]
        · rw [if_neg (by omega), if_neg hi]
      · rw [if_neg h0] at hdn
        have h0' : ¬ (n = 0 ∧ le (A.Gr.data n) epsilon = true) := by
          intro hh; apply h0; refine ⟨hh.1, ?_⟩; have := hh.1; subst this; exact hh.2
        rw [if_neg h0']
        exact disc_in nt ty level att p xo yo zo (A.Gr.data n) fuel (n * nt) h hin
          (fun i hi => h2 n (Nat.le_refl _) i hi) (disc n) (code n) hdn
    have hne := hc n (by omega)
    obtain ⟨h', f1, f2, f3⟩ := ih (n + 1) (h.setCol (n * nt) nt (disc n).data) (code n)
      (by omega) hs (by omega)
      (by
        intro j hj i hi
        by_cases hjn : j = n
        · subst hjn; rw [Buf.setCol_data_in _ _ _ _ _ hi]
        · have : (j + 1) * nt ≤ n * nt := Nat.mul_le_mul_right _ (by omega)
          rw [Nat.add_mul, Nat.one_mul] at this
          rw [Buf.setCol_data_out _ _ _ _ _ (by omega)]
          exact h1 j (by omega) i hi)
      (by
        intro j hj i hi
        have : (n + 1) * nt ≤ j * nt := Nat.mul_le_mul_right _ (by omega)
        rw [Nat.add_mul, Nat.one_mul] at this
        rw [Buf.setCol_data_out _ _ _ _ _ (by omega)]
        exact h2 j (by omega) i hi)
    refine ⟨h', ?_, f2, f3⟩
    simp only [annuDiscs]
    rw [hstep]
    simp only [Outcome.bind]
    rw [if_neg hne, f1]
    by_cases hk : k = 0
    · subst hk
      have : A.numRadii - 1 = n := by omega
      simp [this]
    · rw [if_neg hk, if_neg (by omega)]

/-- The radius used for focusing and apodizing ring `n`: 0 for the centre element, else the mean of
the inner and outer radius. -/
def AnnuPar.ringRadius (A : AnnuPar F) (n : Nat) : F :=
  if n = 0 then lit 0 else (A.Gr.data (2 * n) +. A.Gr.data (2 * n - 1)) /. lit 2

theorem annularDiscRadii_ok (A : AnnuPar F) (hA : A.Sized) :
    ∃ ring, annularDiscRadii A { size := A.numElements, data := fun _ => lit 0 } = .ok ring ∧
      ring.size = A.numElements ∧ ∀ n, n < A.numElements → ring.data n = A.ringRadius n := by
  have h1 := hA.radii
  unfold annularDiscRadii
  simp only [Buf.write]
  rw [if_pos (by simp only [AnnuPar.numElements]; omega)]
  simp only [Outcome.bind]
  obtain ⟨r, g1, g2, g3⟩ := forO_ok
    (fun ns (ring : Buf F) =>
      (A.Gr.read ((2 * ns : Nat) : Int)).bind fun g2 =>
      (A.Gr.read ((2 * ns : Nat) - 1 : Int)).bind fun g1 =>
      if 0 ≤ (ns : Int) ∧ (ns : Int) < (ring.size : Int) then
        .ok { ring with data := fun j => if j = (ns : Int).toNat then (g2 +. g1) /. lit 2
          else ring.data j } else .ub .oob)
    (fun ns ring => ring.size = A.numElements ∧ ∀ n, n < ns → ring.data n = A.ringRadius n)
    ((A.numRadii - 1) / 2) 1
    { size := A.numElements,
      data := fun j => if j = (0 : Int).toNat then lit 0 else (fun _ => lit 0) j }
    (by
      intro ns h2 h3 ring hr
      rw [Buf.read_nat _ _ (by have := hA.gr; omega)]
      simp only [Outcome.bind]
      rw [show ((2 * ns : Nat) : Int) - 1 = ((2 * ns - 1 : Nat) : Int) by omega,
        Buf.read_nat _ _ (by have := hA.gr; omega)]
      simp only
      rw [if_pos (by rw [hr.1]; simp only [AnnuPar.numElements]; omega)]
      refine ⟨_, rfl, hr.1, fun n hn => ?_⟩
      simp only [Int.toNat_natCast]
      by_cases hnn : n = ns
      · subst hnn
        rw [if_pos rfl]
        simp only [AnnuPar.ringRadius]
        rw [if_neg (by omega)]
      · rw [if_neg hnn]; exact hr.2 n (by omega))
    (by
      refine ⟨rfl, fun n hn => ?_⟩
      have : n = 0 := by omega
      subst this
      simp [AnnuPar.ringRadius])
  refine ⟨r, g1, g2, fun n hn => g3 n ?_⟩
  simp only [AnnuPar.numElements] at hn
  omega

/-- Sample `i` of ring `n`: the outer disc response minus the inner disc response; the centre
element is a full disc. -/
def ringSample (disc : Nat → Buf F) (n i : Nat) : F :=
  if n = 0 then (disc 0).data i else (disc (2 * n)).data i -. (disc (2 * n - 1)).data i

theorem respAnnular_ok (A : AnnuPar F) (nt : Nat) (disc : Nat → Buf F) (hdisc hring : Buf F)
    (hs : hdisc.size = nt * A.numRadii)
    (hd : ∀ j, j < A.numRadii → ∀ i, i < nt → hdisc.data (j * nt + i) = (disc j).data i)
    (hr : hring.size = nt * A.numElements) (n : Nat) (hn : n < A.numElements) :
    ∃ hring', respAnnular hdisc hring nt n = .ok hring' ∧ hring'.size = hring.size ∧
      ∀ i, i < nt → hring'.data (n * nt + i) = ringSample disc n i := by
  have hb : n * nt + nt ≤ hring.size := by
    have : (n + 1) * nt ≤ A.numElements * nt := Nat.mul_le_mul_right _ (by omega)
    rw [Nat.add_mul, Nat.one_mul] at this
    rw [hr, Nat.mul_comm nt]
    exact this
  have hread : ∀ j, j < A.numRadii → ∀ i, i < nt →
      hdisc.read ((j * nt + i : Nat) : Int) = .ok ((disc j).data i) := by
    intro j hj i hi
    rw [Buf.read_nat, hd j hj i hi]
    have : (j + 1) * nt ≤ A.numRadii * nt := Nat.mul_le_mul_right _ (by omega)
    rw [Nat.add_mul, Nat.one_mul] at this
    rw [hs, Nat.mul_comm nt]
    omega
  have hne : 2 * n < A.numRadii := by simp only [AnnuPar.numElements] at hn; omega
  have hset := Buf.setCol_getCol hring (n * nt) nt
  unfold respAnnular
  simp only
  by_cases h0 : 2 * n = 0
  · rw [if_pos h0]
    have := forO_fill (fun i (hring : Buf F) => (hdisc.read (i : Int)).bind fun x =>
      hring.write ((n * nt + i : Nat) : Int) x) hring (n * nt) nt (ringSample disc n) hb
      (by
        intro i hi c
        have hr0 := hread 0 (by omega) i hi
        rw [Nat.zero_mul, Nat.zero_add] at hr0
        rw [hr0]
        simp only [Outcome.bind, ringSample]
        rw [if_pos (by omega)]) (hring.getCol (n * nt) nt)
    rw [hset] at this
    refine ⟨_, this, rfl, fun i hi => ?_⟩
    rw [Buf.setCol_data_in _ _ _ _ _ hi]
  · rw [if_neg h0]
    have := forO_fill (fun i (hring : Buf F) =>
      (hdisc.read ((2 * n * nt + i : Nat) : Int)).bind fun x =>
      (hdisc.read (((2 * n - 1) * nt + i : Nat) : Int)).bind fun y =>
      hring.write ((n * nt + i : Nat) : Int) (x -. y)) hring (n * nt) nt (ringSample disc n) hb
      (by
        intro i hi c
        rw [hread (2 * n) hne i hi]
        simp only [Outcome.bind]
        rw [hread (2 * n - 1) (by omega) i hi]
        simp only [ringSample]
        rw [if_neg (by omega)]) (hring.getCol (n * nt) nt)
    rw [hset] at this
    refine ⟨_, this, rfl, fun i hi => ?_⟩
    rw [Buf.setCol_data_in _ _ _ _ _ hi]

/-- Focusing delay of ring `n`. -/
def AnnuPar.ringDelay (A : AnnuPar F) (cp : F) (n : Nat) : F :=
  focusingAnnular A.focMet (if A.focMet = .ud then A.focal.data n else A.focal.data 0)
    (A.ringRadius n) (A.ringRadius (A.numElements - 1)) cp

/-- Weight of ring `n`. -/
def AnnuPar.ringWeight (A : AnnuPar F) (n : Nat) : F :=
  if A.doApod then
    match A.apodMet with
    | .ud => A.apod.data n
    | .hann | .hamming => lit 1
    | met => apodFormula met (lit 0) (A.ringRadius n) (A.ringRadius (A.numElements - 1)) A.apodPar
  else lit 1

theorem ringPar_ok (A : AnnuPar F) (hA : A.Sized) (ring : Buf F) (cp : F) (n : Nat)
    (hn : n < A.numElements) (hs : ring.size = A.numElements)
    (hr : ring.data n = A.ringRadius n) :
    ringPar A ring (A.ringRadius (A.numElements - 1)) cp n =
      .ok (A.ringDelay cp n, A.ringWeight n) := by
  have hf := hA.focal
  have ha := hA.apod
  unfold ringPar
  rw [Buf.read_nat _ _ (by omega), hr]
  simp only [Outcome.bind]
  have hfoc : A.focal.read (if A.focMet = .ud then (n : Int) else 0) =
      .ok (if A.focMet = .ud then A.focal.data n else A.focal.data 0) := by
    by_cases h : A.focMet = .ud
    · rw [if_pos h] at hf
      rw [if_pos h, if_pos h, Buf.read_nat _ _ (by omega)]
    · rw [if_neg h] at hf
      rw [if_neg h, if_neg h]
      exact Buf.read_nat A.focal 0 (by omega)
  rw [hfoc]
  simp only
  have hw : (if A.doApod then apodizationAnnular A.apodMet n A.apod (A.ringRadius n)
      (A.ringRadius (A.numElements - 1)) A.apodPar else .ok (lit 1)) = .ok (A.ringWeight n) := by
    unfold AnnuPar.ringWeight
    by_cases hd : A.doApod = true
    · rw [if_pos hd, if_pos hd]
      cases hm : A.apodMet with
      | ud =>
        simp only [apodizationAnnular]
        rw [Buf.read_nat _ _ (by have := ha hd hm; omega)]
      | _ => rfl
    · rw [if_neg hd, if_neg hd]
  rw [hw]
  rfl

/-- C22 (any arithmetic): let `disc n` be the response of the full disc with radius number `n`.
Then the annular array leaves in sample `i` of its column, starting from 0 and adding ring after
ring, the ring weight times sample `i - k` of the ring, where the ring is the difference of its
outer and inner disc and `k = rint(delay/dt) + 1` its delay index; the previous content of the
column does not matter, nothing else is changed, and the code is that of the last radius. -/
theorem C22_rings (A : AnnuPar F) (hA : A.Sized) (nt : Nat) (ty : IdxTy)
    (level : ErrorLevel) (att : Option (AttResp F)) (p : Par F) (xo yo zo : F) (fuel : Nat)
    (disc : Nat → Buf F) (code : Nat → SIRError)
    (hd : ∀ n, n < A.numRadii → A.DiscIs nt ty level att p xo yo zo fuel n (disc n) (code n))
    (hc : ∀ n, n < A.numRadii → code n ≠ .outOfBounds)
    (q : Nat → Int)
    (hq : ∀ n, n < A.numElements →
      castIdx ty (rint (A.ringDelay p.cp n /. p.dt)) = .ok (q n) ∧ 0 ≤ q n + 1)
    (c : Nat → F) :
    (annuSerial A nt ty level att p xo yo zo fuel).runCol nt c =
      .ok ((fun i => if i < nt then
        (List.range A.numElements).foldl (fun s n => s +. A.ringWeight n *.
          (if q n + 1 ≤ (i : Int) then ringSample disc n (i - (q n + 1).toNat) else lit 0))
          (lit 0) else c i), code (A.numRadii - 1)) := by
  have h1 := hA.radii
  have hE : 1 ≤ A.numElements := by simp only [AnnuPar.numElements]; omega
  unfold annuSerial
  rw [Prog.runCol_bind, Prog.forN_pointwise nt nt _ (fun _ _ => lit 0)
    (by
      intro i hi c
      simp only [Prog.runCol]
      rw [if_pos (by omega)]
      simp)]
  simp only [Outcome.bind]
  obtain ⟨h', f1, f2, f3⟩ := annuDiscs_ok A hA nt ty level att p xo yo zo fuel disc code hd hc
    A.numRadii 0 (zeros F (nt * A.numRadii)) .none (by omega) rfl (fun _ => rfl)
    (fun j hj => by omega) (fun j _ i _ => rfl)
  rw [if_neg (by omega)] at f1
  rw [Prog.runCol_bind, Prog.runCol_lift]
  simp only [zeros] at f1
  rw [f1]
  simp only [Outcome.map, Outcome.bind]
  rw [if_neg (hc _ (by omega))]
  obtain ⟨ring, r1, r2, r3⟩ := annularDiscRadii_ok A hA
  rw [Prog.runCol_bind, Prog.runCol_lift, r1]
  simp only [Outcome.map, Outcome.bind]
  rw [Prog.runCol_bind, Prog.runCol_lift,
    show (A.numElements : Int) - 1 = ((A.numElements - 1 : Nat) : Int) by omega,
    Buf.read_nat _ _ (by omega), r3 _ (by omega)]
  simp only [Outcome.map, Outcome.bind]
  rw [Prog.runCol_bind]
  obtain ⟨c', s', g1, g2, g3⟩ := Prog.forN_runCol nt
    (fun n hring =>
      (Prog.lift (ringPar A ring (A.ringRadius (A.numElements - 1)) p.cp n)).bind fun fw =>
      (Prog.lift (respAnnular h' hring nt n)).bind fun hring =>
      (superposAnnular ty hring nt fw.2 fw.1 n p.dt).bind fun _ => Prog.ret hring)
    (fun k c' hring => hring.size = nt * A.numElements ∧
      c' = fun i => if i < nt then
        (List.range k).foldl (fun s n => s +. A.ringWeight n *.
          (if q n + 1 ≤ (i : Int) then ringSample disc n (i - (q n + 1).toNat) else lit 0))
          (lit 0) else c i)
    A.numElements 0 { size := nt * A.numElements, data := fun _ => lit 0 }
    (fun i => if i < nt then lit 0 else c i)
    (by
      intro n _ hn c1 hring hh
      obtain ⟨hsz, rfl⟩ := hh
      rw [Nat.zero_add] at hn
      obtain ⟨hring', e1, e2, e3⟩ := respAnnular_ok A nt disc h' hring f2 f3 hsz n hn
      obtain ⟨q1, q2⟩ := hq n hn
      have hsz' : (n + 1) * nt ≤ hring'.size := by
        have : (n + 1) * nt ≤ A.numElements * nt := Nat.mul_le_mul_right _ (by omega)
        rw [e2, hsz, Nat.mul_comm nt]
        exact this
      rw [Prog.runCol_bind, Prog.runCol_lift, ringPar_ok A hA ring p.cp n hn r2 (r3 n hn)]
      simp only [Outcome.map, Outcome.bind]
      rw [Prog.runCol_bind, Prog.runCol_lift, e1]
      simp only [Outcome.map, Outcome.bind]
      rw [Prog.runCol_bind, C21_superpos ty hring' nt _ _ n p.dt hsz' (q n) q1 q2]
      refine ⟨_, _, rfl, by rw [e2, hsz], ?_⟩
      funext i
      by_cases hi : i < nt
      · simp only [if_pos hi]
        rw [List.range_succ, List.foldl_append]
        simp only [List.foldl_cons, List.foldl_nil]
        by_cases h3 : q n + 1 ≤ (i : Int)
        · rw [if_pos h3, if_pos h3, e3 _ (by omega)]
        · rw [if_neg h3, if_neg h3]
      · simp only [if_neg hi])
    ⟨rfl, by funext i; simp⟩
  rw [g1, g3, Nat.zero_add]
  simp only [Outcome.bind, Prog.runCol]

end Dream
