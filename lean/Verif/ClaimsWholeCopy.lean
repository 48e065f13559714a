import Verif.ClaimsWholeAna

/-
C89, copy_p and add_p.
-/

namespace Dream
open Arith

/-! ### Specification -/

/-- What copy_p(A,[r0 r1],[1 N],B) and add_p should leave in row `i` of column `n` of `A` (rows and columns
counted from zero here). -/
noncomputable def blockOf (op : CopyOp) (A B : HMat ℝ) (r0 r1 : ℕ) (n i : ℕ) : ℝ :=
  if r0 ≤ i + 1 ∧ i + 1 ≤ r1 then
    match op with
    | .copy => B.data (n * B.rows + (i + 1 - r0))
    | .add => A.data (n * A.rows + i) + B.data (n * B.rows + (i + 1 - r0))
  else A.data (n * A.rows + i)

/-- A two element vector with the whole numbers `a` and `b`. -/
structure HMat.Pair (m : HMat ℝ) (a b : ℤ) : Prop where
  size : m.rows * m.cols = 2
  fst : m.data 0 = a
  snd : m.data 1 = b

/-! ### Conversions -/

theorem truncR_int (i : ℤ) : truncR (i : ℝ) = i := by
  unfold truncR
  split <;> simp

/-- A number the index type of the interface can hold. -/
def ConvFront.Holds (fe : ConvFront) (i : ℤ) : Prop := fe.idx.fits i = true

theorem castIdx_int {fe : ConvFront} {i : ℤ} (h : fe.Holds i) :
    castIdx fe.idx (trunc (i : ℝ)) = .ok i := by
  rw [r_trunc, truncR_int]
  simp only [castIdx]
  rw [if_pos (show fe.idx.fits i = true from h)]

theorem castIdx_int_bad {fe : ConvFront} {i : ℤ} (h : ¬ fe.Holds i) :
    castIdx fe.idx (trunc (i : ℝ)) = .ub .cast := by
  rw [r_trunc, truncR_int]
  simp only [castIdx]
  rw [if_neg (show ¬ fe.idx.fits i = true from h)]

theorem holds_of {fe : ConvFront} {i : ℤ} (h0 : 0 ≤ i) (h1 : i < 2 ^ 63) : fe.Holds i := by
  have e : (2 : ℤ) ^ 64 = 2 ^ 63 * 2 := by norm_num
  cases fe <;> simp only [ConvFront.Holds, ConvFront.idx, IdxTy.fits, decide_eq_true_eq]
  · exact ⟨h0, by rw [e]; generalize (2:ℤ)^63 = y at h1; omega⟩
  · exact ⟨le_trans (by norm_num) h0, h1⟩

theorem copyWork_eq {F : Type} [Arith F] (op : CopyOp) (aM aN bM bN : ℕ) (B : Buf F) (r0 r1 k0 k1 : ℤ) :
    copyWork op aM bM B (r0 - 1) (k0 - 1) (r1 - r0 + 1) =
      (⟨op, aM, aN, r0, r1, k0, k1, bM, bN, B⟩ : CopyCall F).prog := by
  funext n
  cases op <;> rfl

theorem copyJob_early {F : Type} [Arith F] (fe : ConvFront) (op : CopyOp) (A r k B : HMat F) (nlhs : ℕ) :
    (copyJob fe op [A, r, k, B] nlhs).early = if nlhs > 0 then
      .ok (.error "Too many output arguments for copy_p, none required!") else copyChecks fe A r k B := rfl

/-- The checks for whole numbers, if none of the conversions is undefined. -/
theorem copyChecks_eq (fe : ConvFront) (A r k B : HMat ℝ) (r0 r1 k0 k1 : ℤ) (hr : r.Pair r0 r1)
    (hk : k.Pair k0 k1) (h1 : fe.Holds r0) (h2 : fe.Holds r1) (h3 : fe.Holds k0) (h4 : fe.Holds k1)
    (h5 : fe.Holds (r1 - r0)) (h6 : fe.Holds (k1 - k0)) :
    ((⟨.copy, A.rows, A.cols, r0, r1, k0, k1, B.rows, B.cols, B.buf⟩ : CopyCall ℝ).accepted = true →
      copyChecks fe A r k B = .ok (.ok ⟨.equ, none⟩)) ∧
    ((⟨.copy, A.rows, A.cols, r0, r1, k0, k1, B.rows, B.cols, B.buf⟩ : CopyCall ℝ).accepted ≠ true →
      ∃ e, copyChecks fe A r k B = .ok (.error e)) := by
  rw [ne_eq, CopyCall.accepted_iff]
  simp only
  have c1 := castIdx_int h1
  have c2 := castIdx_int h2
  have c3 := castIdx_int h3
  have c4 := castIdx_int h4
  have c5 : castIdx fe.idx (trunc ((r1 : ℝ) -. (r0 : ℝ))) = .ok (r1 - r0) := by
    rw [r_sub, ← Int.cast_sub]; exact castIdx_int h5
  have c6 : castIdx fe.idx (trunc ((k1 : ℝ) -. (k0 : ℝ))) = .ok (k1 - k0) := by
    rw [r_sub, ← Int.cast_sub]; exact castIdx_int h6
  unfold copyChecks
  rw [hr.fst, hr.snd, hk.fst, hk.snd, c1, c2, c3, c4, c5, c6]
  simp only [Outcome.ok_bind, hr.size, hk.size, ne_eq, not_true_eq_false, if_false]
  constructor
  · intro h
    rw [if_neg (by omega), if_neg (by omega), if_neg (by omega), if_neg (by omega), if_neg (by omega),
      if_neg (by omega)]
  · intro h
    split_ifs <;> first | exact ⟨_, rfl⟩ | (exfalso; apply h; omega)

theorem copyIdx_eq (fe : ConvFront) (r k : HMat ℝ) (r0 r1 k0 k1 : ℤ) (hr : r.Pair r0 r1)
    (hk : k.Pair k0 k1) (h1 : fe.Holds (r0 - 1)) (h2 : fe.Holds (k0 - 1)) (h3 : fe.Holds (r1 - r0 + 1)) :
    copyIdx fe r k = .ok (r0 - 1, k0 - 1, r1 - r0 + 1) := by
  unfold copyIdx
  have e1 : ((r0 : ℝ) - 1) = ((r0 - 1 : ℤ) : ℝ) := by push_cast; ring
  have e2 : ((k0 : ℝ) - 1) = ((k0 - 1 : ℤ) : ℝ) := by push_cast; ring
  have e3 : ((r1 : ℝ) - r0 + 1) = ((r1 - r0 + 1 : ℤ) : ℝ) := by push_cast; ring
  rw [hr.fst, hr.snd, hk.fst]
  simp only [r_sub, r_add, r_lit, Rat.cast_one]
  rw [e1, e2, e3, castIdx_int h1, castIdx_int h2, castIdx_int h3]
  rfl

/-! ### Calls -/

/-- C89, copy_p and add_p: for rows `r0..r1` of all columns of `A`, with `B` having as many columns as `A` and
enough rows, the call has exactly one answer, whatever the number of cores and the schedule of the workers: the
exception for an unusable variable, or no output and the block changed in the given matrix. -/
theorem C89_copy_p (fe : ConvFront) (op : CopyOp) (A r k B : HMat ℝ) (r0 r1 : ℕ) (hr : r.Pair r0 r1)
    (hk : k.Pair 1 A.cols) (h1 : 1 ≤ r0) (h2 : r0 ≤ r1) (h3 : r1 ≤ A.rows) (hN : 1 ≤ A.cols)
    (hb : r1 - r0 + 1 ≤ B.rows) (hbN : B.cols = A.cols) (hA : A.rows < 2 ^ 63 ∧ A.cols < 2 ^ 63)
    (hw : ℕ) (env : Option String) (s : ConvSeen ℝ) :
    (copyJob fe op [A, r, k, B] 0).Sees fe hw env s ↔
      s = (open Classical in if BadEnv env then .thrown else
        .done (some (matOf A.rows A.cols (blockOf op A B r0 r1))) fun _ => none) := by
  let C : CopyCall ℝ := ⟨op, A.rows, A.cols, r0, r1, 1, A.cols, B.rows, B.cols, B.buf⟩
  have hA1 : (A.rows : ℤ) < 2 ^ 63 := by exact_mod_cast hA.1
  have hA2 : (A.cols : ℤ) < 2 ^ 63 := by exact_mod_cast hA.2
  generalize hM : (2 : ℤ) ^ 63 = M at hA1 hA2
  have hold : ∀ i : ℤ, 0 ≤ i → i < M → fe.Holds i := fun i a b => holds_of a (by rw [hM]; exact b)
  have hsz : C.Sized A.buf := by
    refine ⟨rfl, rfl, ?_, ?_, le_rfl, ?_⟩ <;> simp only [C] <;> omega
  have hacc : C.accepted = true := by
    rw [CopyCall.accepted_iff]; simp only [C]; omega
  have hk' : C.k0 = 1 ∧ C.k1 = C.aN := ⟨rfl, rfl⟩
  have hch : copyChecks fe A r k B = .ok (.ok ⟨.equ, none⟩) := by
    refine (copyChecks_eq fe A r k B r0 r1 1 A.cols hr hk (hold _ (by omega) (by omega)) (hold _ (by omega) (by omega))
      (hold _ (by omega) (by omega)) (hold _ (by omega) (by omega)) (hold _ (by omega) (by omega))
      (hold _ (by omega) (by omega))).1 ?_
    rw [CopyCall.accepted_iff] at hacc ⊢
    exact hacc
  have hix := copyIdx_eq fe r k r0 r1 1 A.cols hr hk (hold _ (by omega) (by omega))
    (hold _ (by omega) (by omega)) (hold _ (by omega) (by omega))
  have hprog : copyProg fe op A r k B = C.prog := by
    rw [← copyWork_eq op A.rows A.cols B.rows B.cols B.buf r0 r1 1 A.cols]
    funext n
    unfold copyProg
    rw [hix]
  have hdrv : ∀ mode nth, (copyJob fe op [A, r, k, B] 0).drv mode nth = C.drv := by
    intro mode nth
    show Drv.ofProg A.cols A.rows (fun n => n * A.rows) .none (copyProg fe op A r k B) = _
    rw [hprog]
    rfl
  have key := ConvJob.sees_iff fe (copyJob fe op [A, r, k, B] 0) hw env ⟨.equ, none⟩ .equ
    (some (.mat A.rows A.cols A.data)) A.buf (blockOf op A B r0 r1) (by
      rw [copyJob_early, if_neg (by simp), hch]) rfl rfl (fun _ => rfl) (by
      intro nth hc
      rw [hdrv]
      refine ⟨rfl, rfl, CopyCall.faithful hsz hacc hk', fun n hn => ?_⟩
      obtain ⟨z', e, hv⟩ := (CopyCall.prog_run hsz hacc hk' hn).2 (A.buf.getCol (n * A.rows) A.rows)
      obtain ⟨Y', f1, _, f3, _⟩ := Prog.runBuf_at (n * A.rows) A.rows A.buf (CopyCall.inside hsz n hn)
        (C.prog n) z' .none e
      refine ⟨Y', f1, fun i hi => ?_⟩
      have hi : i < A.rows := hi
      show Y'.data (n * A.rows + i) = _
      rw [f3 i hi, hv i]
      have ec : A.buf.getCol (n * A.rows) A.rows i = A.data (n * A.rows + i) := by
        simp only [Buf.getCol]; rw [if_pos hi]; rfl
      rw [ec]
      unfold CopyCall.want blockOf
      simp only [C, Int.toNat_natCast, HMat.buf]
      by_cases g : r0 ≤ i + 1 ∧ i + 1 ≤ r1
      · rw [if_pos g, if_pos (by omega)]
        cases op <;> rfl
      · rw [if_neg g, if_neg (by omega)]) s
  rw [key]
  rfl

/-- C89, copy_p and add_p: which calls are refused.  In MATLAB the numbers have to be ordered and not negative
for the conversions to be defined. -/
theorem C89_copy_p_refused (fe : ConvFront) (op : CopyOp) (A r k B : HMat ℝ) (nlhs : ℕ) (r0 r1 k0 k1 : ℤ)
    (hr : r.Pair r0 r1) (hk : k.Pair k0 k1) (h1 : fe.Holds r0) (h2 : fe.Holds r1) (h3 : fe.Holds k0)
    (h4 : fe.Holds k1) (h5 : fe.Holds (r1 - r0)) (h6 : fe.Holds (k1 - k0)) (hw : ℕ) (env : Option String)
    (b : Bool) :
    (copyJob fe op [A, r, k, B] nlhs).Sees fe hw env (.refused b) ↔ b = true ∧
      (0 < nlhs ∨ r1 < 1 ∨ (A.rows : ℤ) < r0 ∨ (A.rows : ℤ) < r1 ∨ k1 < 1 ∨ (A.cols : ℤ) < k0 ∨
        (A.cols : ℤ) < k1 ∨ (B.rows : ℤ) < r1 - r0 + 1 ∨ (B.cols : ℤ) ≠ k1 - k0 + 1) := by
  rw [ConvJob.refused_iff]
  have hc := copyChecks_eq fe A r k B r0 r1 k0 k1 hr hk h1 h2 h3 h4 h5 h6
  rw [ne_eq, CopyCall.accepted_iff] at hc
  simp only at hc
  have he : (copyJob fe op [A, r, k, B] nlhs).early = if nlhs > 0 then
      .ok (.error "Too many output arguments for copy_p, none required!") else copyChecks fe A r k B := copyJob_early fe op A r k B nlhs
  have hl : ∀ o e, (copyJob fe op [A, r, k, B] nlhs).late o ≠ .error e := by
    intro o e h; exact absurd h (by simp [copyJob])
  have : (∃ e, (copyJob fe op [A, r, k, B] nlhs).early = .ok (.error e)) ↔
      (0 < nlhs ∨ r1 < 1 ∨ (A.rows : ℤ) < r0 ∨ (A.rows : ℤ) < r1 ∨ k1 < 1 ∨ (A.cols : ℤ) < k0 ∨
        (A.cols : ℤ) < k1 ∨ (B.rows : ℤ) < r1 - r0 + 1 ∨ (B.cols : ℤ) ≠ k1 - k0 + 1) := by
    rw [he]
    by_cases hn : nlhs > 0
    · rw [if_pos hn]
      exact ⟨fun _ => .inl hn, fun _ => ⟨_, rfl⟩⟩
    · rw [if_neg hn]
      by_cases ha : 1 ≤ r1 ∧ r0 ≤ A.rows ∧ r1 ≤ A.rows ∧ 1 ≤ k1 ∧ k0 ≤ A.cols ∧ k1 ≤ A.cols ∧
          r1 - r0 + 1 ≤ B.rows ∧ (B.cols : ℤ) = k1 - k0 + 1
      · rw [hc.1 ha]
        simp only [Outcome.ok.injEq, reduceCtorEq, exists_false, false_iff]
        omega
      · obtain ⟨e, g⟩ := hc.2 ha
        rw [g]
        exact ⟨fun _ => by omega, fun _ => ⟨e, rfl⟩⟩
  have raise : (copyJob fe op [A, r, k, B] nlhs).raises = true := rfl
  rw [raise]
  constructor
  · rintro ⟨e, h | ⟨_, o, e', _, h⟩⟩
    · exact ⟨e, this.1 h⟩
    · exact absurd h (hl o e')
  · rintro ⟨e, h⟩
    exact ⟨e, .inl (this.2 h)⟩

/-- C89: another number of arguments is refused. -/
theorem C89_copy_p_count {F : Type} [Arith F] (fe : ConvFront) (op : CopyOp) (args : List (HMat F)) (nlhs : ℕ)
    (h : args.length ≠ 4) (hw : ℕ) (env : Option String) (s : ConvSeen F) :
    (copyJob fe op args nlhs).Sees fe hw env s ↔ s = .refused true := by
  have he : (copyJob fe op args nlhs).early = .ok (.error "copy_p requires 4 input arguments!") := by
    show (if args.length ≠ 4 then _ else _) = _
    rw [if_pos h]
  constructor
  · intro hs
    cases hs with
    | refused e h' => rfl
    | badArg h' => exact absurd he (h' _)
    | thrown o h' => rw [he] at h'; simp at h'
    | late o h' => rw [he] at h'; simp at h'
    | noMemory o h' => rw [he] at h'; simp at h'
    | ran o h' => rw [he] at h'; simp at h'
  · rintro rfl
    exact .refused _ he

/-- C89: rows or columns that are not given as two numbers are refused. -/
theorem C89_copy_p_shape (fe : ConvFront) (op : CopyOp) (A r k B : HMat ℝ) (nlhs : ℕ) (r0 r1 : ℤ)
    (h : r.rows * r.cols ≠ 2 ∨ (r.Pair r0 r1 ∧ fe.Holds r0 ∧ fe.Holds r1 ∧ k.rows * k.cols ≠ 2)) (hw : ℕ)
    (env : Option String) (s : ConvSeen ℝ) :
    (copyJob fe op [A, r, k, B] nlhs).Sees fe hw env s ↔ s = .refused true := by
  have he : ∃ e, (copyJob fe op [A, r, k, B] nlhs).early = .ok (.error e) := by
    rw [copyJob_early]
    by_cases hn : nlhs > 0
    · rw [if_pos hn]; exact ⟨_, rfl⟩
    rw [if_neg hn]
    unfold copyChecks
    rcases h with h | ⟨hr, c0, c1, hk⟩
    · rw [if_pos h]; exact ⟨_, rfl⟩
    · rw [if_neg (by simp [hr.size]), hr.fst, hr.snd, castIdx_int c0, castIdx_int c1]
      simp only [Outcome.ok_bind]
      split_ifs <;> exact ⟨_, rfl⟩
  obtain ⟨e, he⟩ := he
  constructor
  · intro hs
    cases hs with
    | refused e h' => rfl
    | badArg h' => exact absurd he (h' _)
    | thrown o h' => rw [he] at h'; simp at h'
    | late o h' => rw [he] at h'; simp at h'
    | noMemory o h' => rw [he] at h'; simp at h'
    | ran o h' => rw [he] at h'; simp at h'
  · rintro rfl
    exact .refused _ he

/-- copy_p and add_p have no endless loops. -/
theorem CopyCall.prog_noSpin {F : Type} [Arith F] (C : CopyCall F) (n : ℕ) : (C.prog n).NoSpin := by
  unfold CopyCall.prog
  split
  · trivial
  · refine Prog.NoSpin.bind (Prog.NoSpin.forN (fun l _ => ?_) _ _ _) fun _ => trivial
    unfold CopyCall.entry
    refine Prog.NoSpin.bind (.lift (Buf.read_noFuel _ _)) fun v => ?_
    cases C.op
    · trivial
    · exact fun _ => trivial

theorem CopyCall.spinless {F : Type} [Arith F] (C : CopyCall F) : C.drv.Spinless :=
  ⟨C.prog, rfl, fun n _ => C.prog_noSpin n⟩

/-- C89, a violation: a call for a proper part of the columns is accepted, but has undefined behaviour (reads
outside `B`). -/
theorem C89_copy_p_columns_violated (fe : ConvFront) (op : CopyOp) (A r k B : HMat ℝ) (r0 r1 k0 k1 : ℕ)
    (hr : r.Pair r0 r1) (hk : k.Pair k0 k1) (h1 : 1 ≤ r0) (h2 : r0 ≤ r1) (h3 : r1 ≤ A.rows) (hk0 : 1 ≤ k0)
    (hk1 : k0 ≤ k1) (hkN : k1 ≤ A.cols) (hpart : ¬ (k0 = 1 ∧ k1 = A.cols))
    (hA : A.rows < 2 ^ 63 ∧ A.cols < 2 ^ 63) (hb : r1 - r0 + 1 ≤ B.rows) (hbN : B.cols = k1 - k0 + 1)
    (hw : ℕ) (env : Option String) (s : ConvSeen ℝ) :
    (copyJob fe op [A, r, k, B] 0).Sees fe hw env s ↔
      s = (open Classical in if BadEnv env then .thrown else .undefined) := by
  let C : CopyCall ℝ := ⟨op, A.rows, A.cols, r0, r1, k0, k1, B.rows, B.cols, B.buf⟩
  have hA1 : (A.rows : ℤ) < 2 ^ 63 := by exact_mod_cast hA.1
  have hA2 : (A.cols : ℤ) < 2 ^ 63 := by exact_mod_cast hA.2
  generalize hM : (2 : ℤ) ^ 63 = M at hA1 hA2
  have hold : ∀ i : ℤ, 0 ≤ i → i < M → fe.Holds i := fun i a b => holds_of a (by rw [hM]; exact b)
  have hsz : C.Sized A.buf := by
    refine ⟨rfl, rfl, ?_, ?_, ?_, ?_⟩ <;> simp only [C] <;> omega
  have hacc : C.accepted = true := by
    rw [CopyCall.accepted_iff]; simp only [C]; omega
  have hch : copyChecks fe A r k B = .ok (.ok ⟨.equ, none⟩) := by
    refine (copyChecks_eq fe A r k B r0 r1 k0 k1 hr hk (hold _ (by omega) (by omega)) (hold _ (by omega) (by omega))
      (hold _ (by omega) (by omega)) (hold _ (by omega) (by omega)) (hold _ (by omega) (by omega))
      (hold _ (by omega) (by omega))).1 ?_
    rw [CopyCall.accepted_iff] at hacc ⊢
    exact hacc
  have hix := copyIdx_eq fe r k r0 r1 k0 k1 hr hk (hold _ (by omega) (by omega))
    (hold _ (by omega) (by omega)) (hold _ (by omega) (by omega))
  have hprog : copyProg fe op A r k B = C.prog := by
    rw [← copyWork_eq op A.rows A.cols B.rows B.cols B.buf r0 r1 k0 k1]
    funext n
    unfold copyProg
    rw [hix]
  have hdrv : ∀ mode nth, (copyJob fe op [A, r, k, B] 0).drv mode nth = C.drv := by
    intro mode nth
    show Drv.ofProg A.cols A.rows (fun n => n * A.rows) .none (copyProg fe op A r k B) = _
    rw [hprog]
    rfl
  refine ConvJob.sees_stuck fe (copyJob fe op [A, r, k, B] 0) hw env ⟨.equ, none⟩ .equ
    (some (.mat A.rows A.cols A.data)) (by
      rw [copyJob_early, if_neg (by simp), hch]) rfl ?_ s
  intro nth Y hc hY
  obtain rfl : A.buf = Y := by
    have : (copyJob fe op [A, r, k, B] 0).mem (some (.mat A.rows A.cols A.data)) = some A.buf := rfl
    rw [this] at hY
    exact Option.some.inj hY
  rw [hdrv]
  refine ⟨rfl, CopyCall.spinless C, fun as s' hab => ?_⟩
  refine (C39_fewer_columns hsz hacc ?_ nth (C72_count _ _ _ _ _ hc).1).1 as s' hab
  simp only [C]
  omega

/-- C89, a violation: a first row 0 passes the checks, since they test the last row instead; every such call
(rows `0..r1` of all columns, `B` fitting) then gives undefined behaviour: MATLAB in the conversion of `-1` to
`size_t`, Octave when a worker accesses the entry before the matrix. -/
theorem C89_copy_p_row_zero_violated (fe : ConvFront) (op : CopyOp) (A r k B : HMat ℝ) (r1 : ℕ)
    (hr : r.Pair 0 r1) (hk : k.Pair 1 A.cols) (h1 : 1 ≤ r1) (h3 : r1 ≤ A.rows) (hN : 1 ≤ A.cols)
    (hA : A.rows + 1 < 2 ^ 63 ∧ A.cols < 2 ^ 63) (hb : r1 + 1 ≤ B.rows) (hbN : B.cols = A.cols)
    (hw : ℕ) (env : Option String) (s : ConvSeen ℝ) :
    (copyJob fe op [A, r, k, B] 0).Sees fe hw env s ↔
      s = (open Classical in if BadEnv env then .thrown else .undefined) := by
  have hA1 : (A.rows : ℤ) + 1 < 2 ^ 63 := by exact_mod_cast hA.1
  have hA2 : (A.cols : ℤ) < 2 ^ 63 := by exact_mod_cast hA.2
  generalize hM : (2 : ℤ) ^ 63 = M at hA1 hA2
  have hold : ∀ i : ℤ, 0 ≤ i → i < M → fe.Holds i := fun i a b => holds_of a (by rw [hM]; exact b)
  have hr' : r.Pair ((0 : ℕ) : ℤ) r1 := hr
  have hch : copyChecks fe A r k B = .ok (.ok ⟨.equ, none⟩) := by
    refine (copyChecks_eq fe A r k B 0 r1 1 A.cols hr hk (hold _ (by omega) (by omega)) (hold _ (by omega) (by omega))
      (hold _ (by omega) (by omega)) (hold _ (by omega) (by omega)) (hold _ (by omega) (by omega))
      (hold _ (by omega) (by omega))).1 ?_
    rw [CopyCall.accepted_iff]
    simp only
    omega
  refine ConvJob.sees_stuck fe (copyJob fe op [A, r, k, B] 0) hw env ⟨.equ, none⟩ .equ
    (some (.mat A.rows A.cols A.data)) (by
      rw [copyJob_early, if_neg (by simp), hch]) rfl ?_ s
  intro nth Y hc hY
  have hdrv : (copyJob fe op [A, r, k, B] 0).drv .equ nth =
    Drv.ofProg A.cols A.rows (fun n => n * A.rows) .none (copyProg fe op A r k B) := rfl
  have hcode : ∀ n, (copyProg fe op A r k B n).NoSpin ∧ (copyProg fe op A r k B n).Rets (fun e => e ≠ .outOfBounds) := by
    intro n
    unfold copyProg
    cases hix : copyIdx fe r k with
    | ub e => exact ⟨trivial, trivial⟩
    | fuel => exact ⟨trivial, trivial⟩
    | ok x =>
      obtain ⟨i, j, l⟩ := x
      have e := congrFun (copyWork_eq op A.rows A.cols B.rows B.cols B.buf (i + 1) (i + l) (j + 1) 0) n
      rw [show i + 1 - 1 = i by omega, show j + 1 - 1 = j by omega, show i + l - (i + 1) + 1 = l by omega] at e
      dsimp only
      rw [e]
      exact ⟨CopyCall.prog_noSpin _ n, CopyCall.prog_rets n⟩
  rw [hdrv]
  refine ⟨rfl, ⟨_, rfl, fun n _ => (hcode n).1⟩, fun as s' hab => ?_⟩
  refine Drv.ofProg_stuck_at Y 0 (by omega) (fun j => j = -1) (fun j e => ?_) ?_ (fun n _ => (hcode n).2) nth
    (C72_count _ _ _ _ _ hc).1 as hab s'
  · left
    subst e
    simp
  · unfold copyProg
    cases fe with
    | matlab =>
      have : copyIdx .matlab r k = .ub .cast := by
        unfold copyIdx
        rw [hr.fst]
        have e1 : (((0 : ℤ) : ℝ) -. lit 1) = ((-1 : ℤ) : ℝ) := by
          simp only [r_sub, r_lit, Rat.cast_one]; push_cast; ring
        rw [e1, castIdx_int_bad (fe := .matlab)
          (show ¬ (IdxTy.fits ConvFront.matlab.idx (-1) = true) by decide)]
        rfl
      rw [this]
      trivial
    | octave =>
      have hix := copyIdx_eq .octave r k 0 r1 1 A.cols hr hk
        (show IdxTy.fits ConvFront.octave.idx (0 - 1) = true by decide)
        (show IdxTy.fits ConvFront.octave.idx (1 - 1) = true by decide)
        (hold _ (by omega) (by omega))
      rw [hix]
      dsimp only
      unfold copyWork
      rw [if_neg (by omega)]
      refine Prog.Hits.bind (Prog.Hits.forN (i := 0) (fun _ => ?_) _ _ _ (by omega) (by omega))
      refine Prog.Hits.bind_right _ fun v => ?_
      have hi : ((0 : ℤ) - 1 + (1 - 1) * (A.rows : ℤ) + ((0 : ℕ) : ℤ)) = -1 := by simp
      rw [hi]
      cases op
      · exact .inl rfl
      · exact .inl rfl

/-- C89, a violation in MATLAB: a first row larger than the last one (both rows of `A`) is not refused but gives
undefined behaviour, the conversion of a negative number to `size_t`. -/
theorem C89_copy_p_reversed_violated (op : CopyOp) (A r k B : HMat ℝ) (r0 r1 k0 k1 : ℕ)
    (hr : r.Pair r0 r1) (hk : k.Pair k0 k1) (h1 : 1 ≤ r1) (h2 : r1 < r0) (h3 : r0 ≤ A.rows)
    (hk1 : 1 ≤ k1) (hk2 : k0 ≤ A.cols) (hk3 : k1 ≤ A.cols) (hA : A.rows < 2 ^ 63 ∧ A.cols < 2 ^ 63)
    (hw : ℕ) (env : Option String) (s : ConvSeen ℝ) :
    (copyJob .matlab op [A, r, k, B] 0).Sees .matlab hw env s ↔ s = .undefined := by
  have hA1 : (A.rows : ℤ) < 2 ^ 63 := by exact_mod_cast hA.1
  have hA2 : (A.cols : ℤ) < 2 ^ 63 := by exact_mod_cast hA.2
  generalize hM : (2 : ℤ) ^ 63 = M at hA1 hA2
  have hold : ∀ i : ℤ, 0 ≤ i → i < M → ConvFront.matlab.Holds i := fun i a b => holds_of a (by rw [hM]; exact b)
  have hneg : ¬ ConvFront.matlab.Holds ((r1 : ℤ) - r0) := by
    simp only [ConvFront.Holds, ConvFront.idx, IdxTy.fits, decide_eq_true_eq]
    omega
  have hch : copyChecks .matlab A r k B = .ub .cast := by
    unfold copyChecks
    have c5 : castIdx ConvFront.matlab.idx (trunc (((r1 : ℤ) : ℝ) -. ((r0 : ℤ) : ℝ))) = .ub .cast := by
      rw [r_sub, ← Int.cast_sub]; exact castIdx_int_bad hneg
    rw [hr.fst, hr.snd, hk.fst, hk.snd, castIdx_int (hold _ (by omega) (by omega)),
      castIdx_int (hold _ (by omega) (by omega)), castIdx_int (hold _ (by omega) (by omega)),
      castIdx_int (hold _ (by omega) (by omega)), c5]
    simp only [Outcome.ok_bind, hr.size, hk.size, ne_eq, not_true_eq_false, if_false]
    rw [if_neg (by omega), if_neg (by omega), if_neg (by omega), if_neg (by omega)]
    rfl
  have he : (copyJob .matlab op [A, r, k, B] 0).early = .ub .cast := by
    rw [copyJob_early, if_neg (by simp), hch]
  constructor
  · intro hs
    cases hs with
    | refused e h' => rw [he] at h'; cases h'
    | badArg h' => rfl
    | thrown o h' => rw [he] at h'; cases h'
    | late o h' => rw [he] at h'; cases h'
    | noMemory o h' => rw [he] at h'
    | ran o h' => rw [he] at h'; cases h'
  · rintro rfl
    refine .badArg fun x h => ?_
    rw [he] at h
    cases h

/-! ### The hypotheses are met -/

/-- A `4 × 2` matrix. -/
noncomputable def exCopyA : HMat ℝ := ⟨4, 2, fun i => i⟩
/-- A `2 × 2` block. -/
noncomputable def exCopyB : HMat ℝ := ⟨2, 2, fun i => 10 + i⟩
/-- Rows or columns `a..b`. -/
noncomputable def exPair (a b : ℤ) : HMat ℝ := ⟨1, 2, fun i => if i = 0 then a else b⟩

theorem exPair_pair (a b : ℤ) : (exPair a b).Pair a b := ⟨rfl, by simp [exPair], by simp [exPair]⟩

-- add_p(A,[2 3],[1 2],B) on eight cores: row 3 of column 2 becomes 6 + 13
example (s : ConvSeen ℝ) : (copyJob .octave .add [exCopyA, exPair 2 3, exPair 1 2, exCopyB] 0).Sees .octave 8 none s ↔
    s = .done (some (matOf 4 2 (blockOf .add exCopyA exCopyB 2 3))) fun _ => none := by
  have := C89_copy_p .octave .add exCopyA (exPair 2 3) (exPair 1 2) exCopyB 2 3 (exPair_pair 2 3)
    (exPair_pair 1 2) (by norm_num) (by norm_num) (by simp [exCopyA]) (by simp [exCopyA]) (by simp [exCopyB])
    rfl ⟨by simp [exCopyA], by simp [exCopyA]⟩ 8 none s
  rw [this, if_neg not_badEnv_unset]
  rfl
example : blockOf .add exCopyA exCopyB 2 3 1 2 = 6 + 13 := by
  simp [blockOf, exCopyA, exCopyB]; norm_num
example : blockOf .copy exCopyA exCopyB 2 3 1 3 = 7 := by
  simp [blockOf, exCopyA]

-- rows 2..5 of a matrix with 4 rows are refused
example : (copyJob .matlab .copy [exCopyA, exPair 2 5, exPair 1 2, exCopyB] 0).Sees .matlab 8 none (.refused true) :=
  (C89_copy_p_refused .matlab .copy exCopyA _ _ exCopyB 0 2 5 1 2 (exPair_pair 2 5) (exPair_pair 1 2)
    (holds_of (by norm_num) (by norm_num)) (holds_of (by norm_num) (by norm_num))
    (holds_of (by norm_num) (by norm_num)) (holds_of (by norm_num) (by norm_num))
    (holds_of (by norm_num) (by norm_num)) (holds_of (by norm_num) (by norm_num)) 8 none true).2
    ⟨rfl, .inr (.inr (.inr (.inl (by simp [exCopyA]))))⟩
example : (copyJob .matlab .copy [exCopyA] 0).Sees .matlab 8 none (.refused true) :=
  (C89_copy_p_count .matlab .copy [exCopyA] 0 (by simp) 8 none _).2 rfl

example (s : ConvSeen ℝ) : (copyJob .matlab .copy [exCopyA, exPair 2 3, ⟨1, 1, fun _ => 1⟩, exCopyB] 0).Sees .matlab 8
    none s ↔ s = .refused true :=
  C89_copy_p_shape .matlab .copy exCopyA _ _ exCopyB 0 2 3 (.inr ⟨exPair_pair 2 3,
    holds_of (by norm_num) (by norm_num), holds_of (by norm_num) (by norm_num), by simp⟩) 8 none s

-- columns 2..2 of two, row 0, rows 3..2
example (s : ConvSeen ℝ) : (copyJob .octave .copy [exCopyA, exPair 2 3, exPair 2 2, ⟨2, 1, fun _ => 1⟩] 0).Sees
    .octave 8 none s ↔ s = .undefined := by
  have h := C89_copy_p_columns_violated .octave .copy exCopyA _ _ ⟨2, 1, fun _ => 1⟩ 2 3 2 2 (exPair_pair 2 3) (exPair_pair 2 2)
    (by norm_num) (by norm_num) (by simp [exCopyA]) (by norm_num) (by norm_num) (by simp [exCopyA]) (by simp)
    ⟨by simp [exCopyA], by simp [exCopyA]⟩ (by simp) (by simp) 8 none s
  rwa [if_neg not_badEnv_unset] at h
example (s : ConvSeen ℝ) : (copyJob .matlab .copy [exCopyA, exPair 0 1, exPair 1 2, exCopyB] 0).Sees .matlab 8 none s ↔
    s = .undefined := by
  have h := C89_copy_p_row_zero_violated .matlab .copy exCopyA _ _ exCopyB 1 (exPair_pair 0 1) (exPair_pair 1 2)
    (by norm_num) (by simp [exCopyA]) (by simp [exCopyA]) ⟨by simp [exCopyA], by simp [exCopyA]⟩ (by simp [exCopyB])
    rfl 8 none s
  rwa [if_neg not_badEnv_unset] at h
example : (copyJob .matlab .copy [exCopyA, exPair 3 2, exPair 1 2, exCopyB] 0).Sees .matlab 8 none .undefined :=
  (C89_copy_p_reversed_violated .copy exCopyA _ _ exCopyB 3 2 1 2 (exPair_pair 3 2) (exPair_pair 1 2)
    (by norm_num) (by norm_num) (by simp [exCopyA]) (by norm_num) (by simp [exCopyA]) (by simp [exCopyA])
    ⟨by simp [exCopyA], by simp [exCopyA]⟩ 8 none _).2 rfl

end Dream
