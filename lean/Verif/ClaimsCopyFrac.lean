import Verif.ClaimsWholeCopy

/-
C89, copy_p and add_p with row and column numbers that are not whole.
-/

namespace Dream
open Arith

/-! ### Specification -/

/-- A two element vector with the numbers `a` and `b`. -/
structure HMat.PairR (m : HMat ℝ) (a b : ℝ) : Prop where
  size : m.rows * m.cols = 2
  fst : m.data 0 = a
  snd : m.data 1 = b

/-- The first row or column that is meant by a number above zero: what is before the decimal point, at least one. -/
noncomputable def firstOf (x : ℝ) : ℕ := max 1 ⌊x⌋₊

/-! ### Conversions -/

theorem truncR_floor {x : ℝ} (h : 0 ≤ x) : truncR x = (⌊x⌋₊ : ℤ) := by
  unfold truncR
  rw [if_pos h]
  exact (Int.natCast_floor_eq_floor h).symm

theorem truncR_first {x : ℝ} (h : 0 < x) : truncR (x - 1) = (firstOf x : ℤ) - 1 := by
  unfold firstOf
  by_cases g : 1 ≤ x
  · rw [truncR_floor (by linarith), Nat.floor_sub_one, max_eq_right (by rw [Nat.le_floor_iff h.le]; exact_mod_cast g)]
    have : 1 ≤ ⌊x⌋₊ := by rw [Nat.le_floor_iff h.le]; exact_mod_cast g
    omega
  · have e : ⌊x⌋₊ = 0 := Nat.floor_eq_zero.2 (not_le.1 g)
    have c : ⌈x - 1⌉ = 0 := by
      rw [Int.ceil_eq_iff]
      constructor <;> push_cast <;> linarith [not_le.1 g]
    unfold truncR
    rw [if_neg (by linarith [not_le.1 g]), c, e]
    rfl

theorem castIdx_trunc {fe : ConvFront} {x : ℝ} {i : ℤ} (e : truncR x = i) (h : fe.Holds i) :
    castIdx fe.idx (trunc x) = .ok i := by
  rw [r_trunc, e]
  simp only [castIdx]
  rw [if_pos (show fe.idx.fits i = true from h)]

theorem firstOf_pos (x : ℝ) : 1 ≤ firstOf x := le_max_left _ _

/-- The first row and the distance of the rows do not add up to more than the last row, if the first is at least 1. -/
theorem firstOf_add {x y : ℝ} (hx : 1 ≤ x) (hy : x ≤ y) : firstOf x + ⌊y - x⌋₊ ≤ ⌊y⌋₊ := by
  have e : firstOf x = ⌊x⌋₊ := max_eq_right (by rw [Nat.le_floor_iff (by linarith)]; exact_mod_cast hx)
  rw [e, Nat.le_floor_iff (by linarith)]
  push_cast
  have := Nat.floor_le (show 0 ≤ x by linarith)
  have := Nat.floor_le (show 0 ≤ y - x by linarith)
  linarith

/-! ### The checks and the indices -/

theorem copyChecks_frac (fe : ConvFront) (A r k B : HMat ℝ) (x0 x1 y0 y1 : ℝ) (hr : r.PairR x0 x1) (hk : k.PairR y0 y1)
    (hx0 : 0 < x0) (hx : x0 ≤ x1) (hx1 : 1 ≤ x1) (hxM : ⌊x1⌋₊ ≤ A.rows) (hy0 : 0 < y0) (hy : y0 ≤ y1) (hy1 : 1 ≤ y1)
    (hyN : ⌊y1⌋₊ ≤ A.cols) (hb : ⌊x1 - x0⌋₊ + 1 ≤ B.rows) (hbN : B.cols = ⌊y1 - y0⌋₊ + 1)
    (hA : A.rows + 1 < 2 ^ 63 ∧ A.cols + 1 < 2 ^ 63) :
    copyChecks fe A r k B = .ok (.ok ⟨.equ, none⟩) ∧
      copyIdx fe r k = .ok ((firstOf x0 : ℤ) - 1, (firstOf y0 : ℤ) - 1, (⌊x1 - x0⌋₊ : ℤ) + 1) := by
  have hA1 : (A.rows : ℤ) + 1 < 2 ^ 63 := by exact_mod_cast hA.1
  have hA2 : (A.cols : ℤ) + 1 < 2 ^ 63 := by exact_mod_cast hA.2
  generalize hM : (2 : ℤ) ^ 63 = M at hA1 hA2
  have hold : ∀ i : ℤ, 0 ≤ i → i < M → fe.Holds i := fun i a b => holds_of a (by rw [hM]; exact b)
  have fl : ∀ {a b : ℝ}, a ≤ b → ⌊a⌋₊ ≤ ⌊b⌋₊ := fun h => Nat.floor_mono h
  have p1 : 1 ≤ ⌊x1⌋₊ := by rw [Nat.le_floor_iff (by linarith)]; exact_mod_cast hx1
  have p2 : 1 ≤ ⌊y1⌋₊ := by rw [Nat.le_floor_iff (by linarith)]; exact_mod_cast hy1
  have q1 := fl hx
  have q2 := fl hy
  have q3 : ⌊x1 - x0⌋₊ ≤ ⌊x1⌋₊ := fl (by linarith)
  have q4 : ⌊y1 - y0⌋₊ ≤ ⌊y1⌋₊ := fl (by linarith)
  have c1 := castIdx_trunc (fe := fe) (truncR_floor (show 0 ≤ x1 by linarith)) (hold _ (by omega) (by omega))
  have c0 := castIdx_trunc (fe := fe) (truncR_floor (show 0 ≤ x0 by linarith)) (hold _ (by omega) (by omega))
  have d1 := castIdx_trunc (fe := fe) (truncR_floor (show 0 ≤ y1 by linarith)) (hold _ (by omega) (by omega))
  have d0 := castIdx_trunc (fe := fe) (truncR_floor (show 0 ≤ y0 by linarith)) (hold _ (by omega) (by omega))
  have cd := castIdx_trunc (fe := fe) (truncR_floor (show 0 ≤ x1 - x0 by linarith)) (hold _ (by omega) (by omega))
  have dd := castIdx_trunc (fe := fe) (truncR_floor (show 0 ≤ y1 - y0 by linarith)) (hold _ (by omega) (by omega))
  constructor
  · unfold copyChecks
    rw [hr.fst, hr.snd, hk.fst, hk.snd, c1, c0, d1, d0, r_sub, r_sub, cd, dd]
    simp only [Outcome.ok_bind, hr.size, hk.size, ne_eq, not_true_eq_false, if_false]
    rw [if_neg (by omega), if_neg (by omega), if_neg (by omega), if_neg (by omega), if_neg (by omega),
      if_neg (by omega)]
  · have f1 : firstOf x0 ≤ ⌊x1⌋₊ := max_le p1 q1
    have f2 : firstOf y0 ≤ ⌊y1⌋₊ := max_le p2 q2
    have g1 := firstOf_pos x0
    have g2 := firstOf_pos y0
    have e3 : truncR (x1 - x0 + 1) = (⌊x1 - x0⌋₊ : ℤ) + 1 := by
      rw [truncR_floor (by linarith), Nat.floor_add_one (by linarith)]
      push_cast
      rfl
    unfold copyIdx
    rw [hr.fst, hr.snd, hk.fst]
    simp only [r_sub, r_add, r_lit, Rat.cast_one]
    rw [castIdx_trunc (truncR_first hx0) (hold _ (by omega) (by omega)),
      castIdx_trunc (truncR_first hy0) (hold _ (by omega) (by omega)), castIdx_trunc e3 (hold _ (by omega) (by omega))]
    rfl

/-! ### Claims -/

/-- C89, copy_p and add_p with any numbers: numbers that are not whole are not refused.  The block that is changed
starts at the row before the decimal point of the first number (row 1 for a number below 1), and its length is the
distance of the two numbers before they are rounded; it can end before the last row that was given
(`C89_copy_p_fraction_short_violated`). -/
theorem C89_copy_p_fraction (fe : ConvFront) (op : CopyOp) (A r k B : HMat ℝ) (x0 x1 y0 y1 : ℝ) (hr : r.PairR x0 x1)
    (hk : k.PairR y0 y1) (hx0 : 0 < x0) (hx : x0 ≤ x1) (hx1 : 1 ≤ x1) (hxM : ⌊x1⌋₊ ≤ A.rows)
    (hin : firstOf x0 + ⌊x1 - x0⌋₊ ≤ A.rows) (hy0 : 0 < y0) (hy2 : y0 < 2) (hy : y0 ≤ y1) (hy1 : 1 ≤ y1)
    (hyN : ⌊y1⌋₊ ≤ A.cols) (hall : A.cols = ⌊y1 - y0⌋₊ + 1)
    (hb : ⌊x1 - x0⌋₊ + 1 ≤ B.rows) (hbN : B.cols = A.cols) (hA : A.rows + 1 < 2 ^ 63 ∧ A.cols + 1 < 2 ^ 63)
    (hw : ℕ) (env : Option String) (s : ConvSeen ℝ) :
    (copyJob fe op [A, r, k, B] 0).Sees fe hw env s ↔
      s = (open Classical in if BadEnv env then .thrown else
        .done (some (matOf A.rows A.cols (blockOf op A B (firstOf x0) (firstOf x0 + ⌊x1 - x0⌋₊)))) fun _ => none) := by
  obtain ⟨hch, hix⟩ := copyChecks_frac fe A r k B x0 x1 y0 y1 hr hk hx0 hx hx1 hxM hy0 hy hy1 hyN hb
    (hbN.trans hall) hA
  have hf : firstOf y0 = 1 := by
    have : ⌊y0⌋₊ < 2 := (Nat.floor_lt hy0.le).2 (by exact_mod_cast hy2)
    unfold firstOf
    omega
  have h1 := firstOf_pos x0
  generalize firstOf x0 = r0 at *
  generalize ⌊x1 - x0⌋₊ = d at *
  let C : CopyCall ℝ := ⟨op, A.rows, A.cols, r0, (r0 + d : ℕ), 1, A.cols, B.rows, B.cols, B.buf⟩
  have hsz : C.Sized A.buf := by
    refine ⟨rfl, rfl, ?_, ?_, le_rfl, ?_⟩ <;> simp only [C] <;> omega
  have hacc : C.accepted = true := by
    rw [CopyCall.accepted_iff]; simp only [C]; omega
  have hk' : C.k0 = 1 ∧ C.k1 = C.aN := ⟨rfl, rfl⟩
  have hprog : copyProg fe op A r k B = C.prog := by
    rw [← copyWork_eq op A.rows A.cols B.rows B.cols B.buf r0 (r0 + d : ℕ) 1 A.cols]
    funext n
    unfold copyProg
    rw [hix, hf]
    have e : ((r0 + d : ℕ) : ℤ) - (r0 : ℤ) + 1 = (d : ℤ) + 1 := by omega
    rw [e]
    rfl
  have hdrv : ∀ mode nth, (copyJob fe op [A, r, k, B] 0).drv mode nth = C.drv := by
    intro mode nth
    show Drv.ofProg A.cols A.rows (fun n => n * A.rows) .none (copyProg fe op A r k B) = _
    rw [hprog]
    rfl
  have key := ConvJob.sees_iff fe (copyJob fe op [A, r, k, B] 0) hw env ⟨.equ, none⟩ .equ
    (some (.mat A.rows A.cols A.data)) A.buf (blockOf op A B r0 (r0 + d)) (by
      rw [copyJob_early, if_neg (by simp), hch]) rfl rfl (fun _ => rfl) (by
      intro nth hc
      rw [hdrv]
      refine ⟨rfl, rfl, CopyCall.faithful hsz hacc hk', fun n hn => ?_⟩
      obtain ⟨z', e, hv⟩ := (CopyCall.prog_run hsz hacc hk' hn).2 (A.buf.getCol (n * A.rows) A.rows)
      obtain ⟨Y', f1, _, f3, _⟩ := Prog.runBuf_at (n * A.rows) A.rows A.buf (CopyCall.inside hsz n hn)
        (C.prog n) z' .none e
      refine ⟨Y', f1, fun i hi => ?_⟩
      have hi : i < A.rows := hi
      show Y'.data (n * A.rows + i) = _
      rw [f3 i hi, hv i]
      have ec : A.buf.getCol (n * A.rows) A.rows i = A.data (n * A.rows + i) := by
        simp only [Buf.getCol]; rw [if_pos hi]; rfl
      rw [ec]
      unfold CopyCall.want blockOf
      simp only [C, Int.toNat_natCast, HMat.buf]
      by_cases g : r0 ≤ i + 1 ∧ i + 1 ≤ r0 + d
      · rw [if_pos g, if_pos (by omega)]
        cases op <;> rfl
      · rw [if_neg g, if_neg (by omega)]) s
  rw [key]
  rfl

/-- C89, a violation: the last row that was given is left out whenever the digits after the decimal point of the
first number are larger than those of the last. -/
theorem C89_copy_p_fraction_short_violated (x0 x1 : ℝ) (hx0 : 1 ≤ x0) (hx : x0 ≤ x1)
    (h : x1 - ⌊x1⌋₊ < x0 - ⌊x0⌋₊) : firstOf x0 + ⌊x1 - x0⌋₊ < ⌊x1⌋₊ := by
  have e : firstOf x0 = ⌊x0⌋₊ := max_eq_right (by rw [Nat.le_floor_iff (by linarith)]; exact_mod_cast hx0)
  have g := Nat.floor_le (show 0 ≤ x1 - x0 by linarith)
  rw [e, ← Nat.cast_lt (α := ℝ)]
  push_cast
  linarith

/-- C89, a violation: with a first number between 0 and 1 all checks pass, but the block can be one row longer than
the matrix: the last column is then written outside `A`. -/
theorem C89_copy_p_fraction_overrun_violated (fe : ConvFront) (op : CopyOp) (A r k B : HMat ℝ) (x0 x1 y0 y1 : ℝ)
    (hr : r.PairR x0 x1) (hk : k.PairR y0 y1) (hx0 : 0 < x0) (hx01 : x0 < 1) (hx1 : 1 ≤ x1) (hxM : ⌊x1⌋₊ ≤ A.rows)
    (hover : A.rows ≤ ⌊x1 - x0⌋₊) (hy0 : 0 < y0) (hy2 : y0 < 2) (hy : y0 ≤ y1) (hy1 : 1 ≤ y1)
    (hyN : ⌊y1⌋₊ ≤ A.cols) (hall : A.cols = ⌊y1 - y0⌋₊ + 1)
    (hb : ⌊x1 - x0⌋₊ + 1 ≤ B.rows) (hbN : B.cols = A.cols) (hA : A.rows + 1 < 2 ^ 63 ∧ A.cols + 1 < 2 ^ 63)
    (hw : ℕ) (env : Option String) (s : ConvSeen ℝ) :
    (copyJob fe op [A, r, k, B] 0).Sees fe hw env s ↔
      s = (open Classical in if BadEnv env then .thrown else .undefined) := by
  obtain ⟨hch, hix⟩ := copyChecks_frac fe A r k B x0 x1 y0 y1 hr hk hx0 (by linarith) hx1 hxM hy0 hy hy1 hyN hb
    (hbN.trans hall) hA
  have hf : firstOf y0 = 1 := by
    have : ⌊y0⌋₊ < 2 := (Nat.floor_lt hy0.le).2 (by exact_mod_cast hy2)
    unfold firstOf
    omega
  have hf0 : firstOf x0 = 1 := by
    have : ⌊x0⌋₊ = 0 := Nat.floor_eq_zero.2 hx01
    unfold firstOf
    omega
  rw [hf, hf0] at hix
  generalize ⌊x1 - x0⌋₊ = d at *
  let C : CopyCall ℝ := ⟨op, A.rows, A.cols, 1, (1 + d : ℕ), 1, A.cols, B.rows, B.cols, B.buf⟩
  have hwork : copyProg fe op A r k B = copyWork op A.rows B.rows B.buf 0 0 ((d : ℤ) + 1) := by
    funext n
    unfold copyProg
    rw [hix]
    rfl
  have hprog : copyProg fe op A r k B = C.prog := by
    rw [← copyWork_eq op A.rows A.cols B.rows B.cols B.buf 1 (1 + d : ℕ) 1 A.cols, hwork]
    have e : ((1 + d : ℕ) : ℤ) - (1 : ℤ) + 1 = (d : ℤ) + 1 := by omega
    rw [e]
    rfl
  have hdrv : ∀ mode nth, (copyJob fe op [A, r, k, B] 0).drv mode nth = C.drv := by
    intro mode nth
    show Drv.ofProg A.cols A.rows (fun n => n * A.rows) .none (copyProg fe op A r k B) = _
    rw [hprog]
    rfl
  refine ConvJob.sees_stuck fe (copyJob fe op [A, r, k, B] 0) hw env ⟨.equ, none⟩ .equ
    (some (.mat A.rows A.cols A.data)) (by
      rw [copyJob_early, if_neg (by simp), hch]) rfl ?_ s
  intro nth Y hc hY
  obtain rfl : A.buf = Y := by
    have : (copyJob fe op [A, r, k, B] 0).mem (some (.mat A.rows A.cols A.data)) = some A.buf := rfl
    rw [this] at hY
    exact Option.some.inj hY
  rw [hdrv]
  refine ⟨rfl, CopyCall.spinless C, fun as s' hab => ?_⟩
  refine Drv.ofProg_stuck_at A.buf (A.cols - 1) (show A.cols - 1 < A.cols by omega) (fun j => j = (A.rows : ℤ))
    (fun j e => ?_) ?_ (fun n _ => CopyCall.prog_rets n) nth (C72_count _ _ _ _ _ hc).1 as hab s'
  · right
    subst e
    show ((A.rows * A.cols : ℕ) : ℤ) ≤ (((A.cols - 1) * A.rows : ℕ) : ℤ) + A.rows
    obtain ⟨m, hm⟩ : ∃ m, A.cols = m + 1 := ⟨A.cols - 1, by omega⟩
    rw [hm]
    simp only [Nat.add_sub_cancel]
    push_cast
    linarith [mul_comm (A.rows : ℤ) m, mul_add (A.rows : ℤ) m 1]
  · rw [← hprog, hwork]
    unfold copyWork
    rw [if_neg (by omega)]
    have hn : ((d : ℤ) + 1).toNat = d + 1 := by omega
    rw [hn]
    refine Prog.Hits.bind (Prog.Hits.forN (i := A.rows) (fun _ => ?_) _ _ _ (by omega) (by omega))
    refine Prog.Hits.bind_right _ fun v => ?_
    have e : (0 : ℤ) + 0 * (A.rows : ℤ) + ((A.rows : ℕ) : ℤ) = A.rows := by omega
    rw [e]
    cases op
    · exact .inl rfl
    · exact .inl rfl

/-! ### The hypotheses are met -/

/-- Two numbers. -/
noncomputable def exPairR (a b : ℝ) : HMat ℝ := ⟨1, 2, fun i => if i = 0 then a else b⟩

theorem exPairR_pair (a b : ℝ) : (exPairR a b).PairR a b := ⟨rfl, by simp [exPairR], by simp [exPairR]⟩

-- copy_p(A,[1.9 3.0],[1 2],B) changes rows 1 and 2, not row 3 and not only 2..3
example (s : ConvSeen ℝ) : (copyJob .matlab .copy [exCopyA, exPairR 1.9 3, exPairR 1 2, exCopyB] 0).Sees .matlab 8 none s ↔
    s = .done (some (matOf 4 2 (blockOf .copy exCopyA exCopyB 1 2))) fun _ => none := by
  have f0 : firstOf (1.9 : ℝ) = 1 := by
    have : ⌊(1.9 : ℝ)⌋₊ = 1 := by rw [Nat.floor_eq_iff (by norm_num)]; norm_num
    unfold firstOf; omega
  have f1 : ⌊(3 : ℝ) - 1.9⌋₊ = 1 := by rw [Nat.floor_eq_iff (by norm_num)]; norm_num
  have f2 : ⌊(3 : ℝ)⌋₊ = 3 := by rw [Nat.floor_eq_iff (by norm_num)]; norm_num
  have f3 : ⌊(2 : ℝ)⌋₊ = 2 := by rw [Nat.floor_eq_iff (by norm_num)]; norm_num
  have f4 : ⌊(2 : ℝ) - 1⌋₊ = 1 := by rw [Nat.floor_eq_iff (by norm_num)]; norm_num
  have := C89_copy_p_fraction .matlab .copy exCopyA _ _ exCopyB 1.9 3 1 2 (exPairR_pair 1.9 3) (exPairR_pair 1 2)
    (by norm_num) (by norm_num) (by norm_num) (by rw [f2]; simp [exCopyA]) (by rw [f0, f1]; simp [exCopyA])
    (by norm_num) (by norm_num) (by norm_num) (by norm_num) (by rw [f3]; simp [exCopyA]) (by rw [f4]; rfl)
    (by rw [f1]; simp [exCopyB]) rfl ⟨by simp [exCopyA], by simp [exCopyA]⟩ 8 none s
  rw [this, if_neg not_badEnv_unset, f0, f1]
  rfl
example : firstOf (1.9 : ℝ) + ⌊(3 : ℝ) - 1.9⌋₊ < ⌊(3 : ℝ)⌋₊ :=
  C89_copy_p_fraction_short_violated 1.9 3 (by norm_num) (by norm_num) (by
    have f0 : ⌊(1.9 : ℝ)⌋₊ = 1 := by rw [Nat.floor_eq_iff (by norm_num)]; norm_num
    have f2 : ⌊(3 : ℝ)⌋₊ = 3 := by rw [Nat.floor_eq_iff (by norm_num)]; norm_num
    rw [f0, f2]; norm_num)

-- copy_p(A,[0.5 4.5],[1 2],B) with four rows in A
example (s : ConvSeen ℝ) : (copyJob .octave .add [exCopyA, exPairR 0.5 4.5, exPairR 1 2, ⟨5, 2, fun _ => 1⟩] 0).Sees
    .octave 8 none s ↔ s = .undefined := by
  have f1 : ⌊(4.5 : ℝ) - 0.5⌋₊ = 4 := by rw [Nat.floor_eq_iff (by norm_num)]; norm_num
  have f2 : ⌊(4.5 : ℝ)⌋₊ = 4 := by rw [Nat.floor_eq_iff (by norm_num)]; norm_num
  have f3 : ⌊(2 : ℝ)⌋₊ = 2 := by rw [Nat.floor_eq_iff (by norm_num)]; norm_num
  have f4 : ⌊(2 : ℝ) - 1⌋₊ = 1 := by rw [Nat.floor_eq_iff (by norm_num)]; norm_num
  have := C89_copy_p_fraction_overrun_violated .octave .add exCopyA _ _ ⟨5, 2, fun _ => 1⟩ 0.5 4.5 1 2
    (exPairR_pair 0.5 4.5) (exPairR_pair 1 2)
    (by norm_num) (by norm_num) (by norm_num) (by rw [f2]; simp [exCopyA]) (by rw [f1]; simp [exCopyA])
    (by norm_num) (by norm_num) (by norm_num) (by norm_num) (by rw [f3]; simp [exCopyA]) (by rw [f4]; rfl)
    (by rw [f1]) rfl ⟨by simp [exCopyA], by simp [exCopyA]⟩ 8 none s
  rwa [if_neg not_badEnv_unset] at this

end Dream
