import Verif.SchedThms

/-
Generic theory of a threaded driver: columns, worker program, serial function.  Every threaded
function of the toolbox (SIR functions, array functions, annular arrays, delay-and-sum,
convolutions) is an instance.
-/

namespace Dream
open Arith

variable {F : Type} [Arith F] {L : Type}

/-- A threaded driver: `No` output columns of length `len`, column `n` starting at `base n`;
the worker program, the error level, and what one call of the serial function for column `n`
does to the output matrix. -/
structure Drv (F L : Type) where
  No : Nat
  len : Nat
  base : Nat → Nat
  level : ErrorLevel
  begin : Nat → Outcome L
  step : Nat → L → Eff F L
  serialAt : (n fuel : Nat) → Buf F → Outcome (Buf F × SIRError)

/-- What the workers run. -/
def Drv.task (D : Drv F L) : Task F L := effTask D.begin D.step D.base

/-- The code returned by a driver, src/dreamrect.cc 254-271 (the same join loop in all drivers
except the spherical one). -/
def returned (nth : Nat) (s : Sys F L) : SIRError :=
  joinErr nth (fun w => (s.ws w).err)

/-- The code returned by the spherical driver, src/dreamsphere.cc 252-270. -/
def returnedSphere (nth : Nat) (s : Sys F L) : SIRError :=
  joinErrSphere nth (fun w => (s.ws w).err)

/-- What the user of the MATLAB/Octave/Python function sees. -/
inductive UserOutcome
  | value              -- the matrix is returned
  | valueWithWarning   -- the matrix is returned, a warning is printed
  | errOutOfBounds     -- error "SIR out-of-bounds!"
  | errCtrlC           -- error "CTRL-C pressed!"
  deriving DecidableEq, Repr

/-- Result handling of the wrappers, mex/... `mex_dreamrect.cc` 128-146 (the same text in all
wrappers of SIR functions except julia/src/jl_dreamcylind.cc 137-150, which has no line for the warning,
see `SirKind.tail` in Whole.lean): `running` is `is_running()` after the call, `err` the returned
code. -/
def wrapper (running : Bool) (err : SIRError) : UserOutcome :=
  if !running then
    if err = .outOfBounds then .errOutOfBounds else .errCtrlC
  else if err = .warnOutOfBounds then .valueWithWarning
  else .value

namespace Drv

/-- A complete run of the driver with `nth` workers on output matrix `m` under schedule `as`:
all workers have returned in state `s'`. -/
def Run (D : Drv F L) (nth : Nat) (m : Buf F) (as : List Act) (s' : Sys F L) : Prop :=
  exec D.task as (initSys D.No nth m) = .ok s' ∧ s'.allDone nth

/-- `e` is the code the serial function returns for column `n`. -/
def PointErr (D : Drv F L) (m : Buf F) (n : Nat) (e : SIRError) : Prop :=
  ∃ fuel m', D.serialAt n fuel m = .ok (m', e)

/-- Every column, taken alone, is computed without undefined behaviour in finite time. -/
def Defined (D : Drv F L) (m : Buf F) : Prop :=
  ∀ n, n < D.No → ∃ fuel r, D.serialAt n fuel m = .ok r

/-- The worker program refines the serial function: it works on its own column only, and when
the serial function returns, the small-step program run alone ends with the same column and
code. -/
structure Faithful (D : Drv F L) (m : Buf F) : Prop where
  prog : ∀ n, n < D.No → ∀ fuel r, D.serialAt n fuel m = .ok r →
      ∃ l c, D.begin n = .ok l ∧ r = (m.setCol (D.base n) D.len c, r.2) ∧
        (∃ j, Evals (effCol D.step D.len) n j l (m.getCol (D.base n) D.len) (c, r.2)) ∧
        (r.2 = .none ∨ r.2 = oobErr D.level)
  inside : ∀ n, n < D.No → D.base n + D.len ≤ m.size
  disj : ∀ i j, i < D.No → j < D.No → i ≠ j →
    D.base i + D.len ≤ D.base j ∨ D.base j + D.len ≤ D.base i

variable {D : Drv F L} {m : Buf F}

/-- The job of a call, in the form used below. -/
theorem with_job_mic (hs : D.Faithful m) (hd : D.Defined m) :
    ∃ J : Job F L, J.mic = effCol D.step D.len ∧ J.t = D.task ∧ J.No = D.No ∧ J.mem = m ∧ J.len = D.len ∧
      (J.base = D.base) ∧
      (∀ n, n < D.No → ∀ fuel m' e, D.serialAt n fuel m = .ok (m', e) →
        m'.getCol (D.base n) D.len = (J.res n).1 ∧ e = J.err n) ∧
      (∀ n, n < D.No → J.err n = .none ∨ J.err n = oobErr D.level) ∧
      (∀ n, n < D.No → D.PointErr m n (J.err n)) := by
  have loc := effTask_local D.begin D.step D.base D.len
  have hprog := hs.prog
  generalize hm : effCol D.step D.len = mic at *
  have hex : ∀ n, ∃ v : ((Nat → F) × SIRError) × Nat, n < D.No →
      ∃ l, D.task.begin n = .ok l ∧ Evals mic n v.2 l
        (m.getCol (D.base n) D.len) v.1 ∧ (v.1.2 = .none ∨ v.1.2 = oobErr D.level) := by
    intro n
    by_cases hn : n < D.No
    · obtain ⟨fuel, r, hr⟩ := hd n hn
      obtain ⟨l, c, h1, _, ⟨j, h3⟩, h4⟩ := hprog n hn fuel r hr
      exact ⟨((c, r.2), j), fun _ => ⟨l, h1, h3, h4⟩⟩
    · exact ⟨((fun _ => lit 0, .none), 0), fun h => absurd h hn⟩
  obtain ⟨v, hv⟩ := Classical.axiomOfChoice hex
  have hres : ∀ n, n < D.No → ∀ fuel m' e, D.serialAt n fuel m = .ok (m', e) →
      m'.getCol (D.base n) D.len = (v n).1.1 ∧ e = (v n).1.2 := by
    intro n hn fuel m' e hser
    obtain ⟨l, c, h1, h2, ⟨j, h3⟩, _⟩ := hprog n hn fuel _ hser
    obtain ⟨l', h1', h2', _⟩ := hv n hn
    rw [show D.task.begin n = D.begin n from rfl, h1] at h1'
    simp only [Outcome.ok.injEq] at h1'
    subst h1'
    have hdet := (h3.det h2').1
    simp only [Prod.mk.injEq] at h2
    refine ⟨?_, ?_⟩
    · rw [h2.1]
      have hp : ∀ i, D.len ≤ i → c i = lit 0 := by
        have := (fun h => Job.getCol_pad m (D.base n) D.len h)
        have key : ∀ {k l c0 r}, Evals mic n k l c0 r →
            (∀ i, D.len ≤ i → c0 i = lit 0) → ∀ i, D.len ≤ i → r.1 i = lit 0 := by
          intro k l c0 r h
          induction h with
          | last h1 => exact fun hc => loc.pad _ _ _ _ _ h1 hc
          | more h1 _ ih => exact fun hc => ih (loc.pad _ _ _ _ _ h1 hc)
        exact key h3 this
      rw [Job.getCol_set _ _ _ _ hp]
      exact congrArg Prod.fst hdet
    · exact congrArg Prod.snd hdet
  refine ⟨{ t := D.task, No := D.No, base := D.base, len := D.len,
            mic := mic, loc := loc, mem := m,
            inside := hs.inside, disj := hs.disj, res := fun n => (v n).1,
            steps := fun n => (v n).2,
            ends := ?_ }, rfl, rfl, rfl, rfl, rfl, rfl, hres, ?_, ?_⟩
  · intro n hn
    obtain ⟨l, h1, h2, _⟩ := hv n hn
    exact ⟨l, h1, h2⟩
  · intro n hn
    obtain ⟨l', _, _, h⟩ := hv n hn
    exact h
  · intro n hn
    obtain ⟨fuel, r, hr⟩ := hd n hn
    obtain ⟨m', e⟩ := r
    have := (hres n hn fuel m' e hr).2
    show D.PointErr m n (v n).1.2
    exact ⟨fuel, m', this ▸ hr⟩

/-- The job of a call, in the form used below. -/
theorem with_job (hs : D.Faithful m) (hd : D.Defined m) :
    ∃ J : Job F L, J.t = D.task ∧ J.No = D.No ∧ J.mem = m ∧ J.len = D.len ∧
      (J.base = D.base) ∧
      (∀ n, n < D.No → ∀ fuel m' e, D.serialAt n fuel m = .ok (m', e) →
        m'.getCol (D.base n) D.len = (J.res n).1 ∧ e = J.err n) ∧
      (∀ n, n < D.No → J.err n = .none ∨ J.err n = oobErr D.level) ∧
      (∀ n, n < D.No → D.PointErr m n (J.err n)) := by
  obtain ⟨J, _, h⟩ := with_job_mic hs hd
  exact ⟨J, h⟩

theorem getCol_eq {m m' : Buf F} {b nt : Nat} (h : m.getCol b nt = m'.getCol b nt) (j : Nat)
    (hj : j < nt) : m.data (b + j) = m'.data (b + j) := by
  have := congrFun h j
  simpa [Buf.getCol, hj] using this

/-- The code of a point does not depend on the fuel. -/
theorem PointErr.unique (hs : D.Faithful m) (hd : D.Defined m) {n : Nat} (hn : n < D.No)
    {e e' : SIRError} (h : D.PointErr m n e) (h' : D.PointErr m n e') : e = e' := by
  obtain ⟨J, _, _, _, _, _, h6, _⟩ := with_job hs hd
  obtain ⟨f, m1, h1⟩ := h
  obtain ⟨f', m2, h2⟩ := h'
  rw [(h6 n hn f m1 e h1).2, (h6 n hn f' m2 e' h2).2]


/-- if no point stops the run and nobody aborts, then for every worker count and every
schedule that reaches the join, each sample of each output column is the one the serial kernel
computes for that observation point from the initial matrix. -/
theorem columns (hs : D.Faithful m) (hd : D.Defined m) (nth : Nat) (h1 : 1 ≤ nth)
    (as : List Act) (hab : Act.abort ∉ as)
    (hok : ∀ n, n < D.No → ¬ D.PointErr m n .outOfBounds)
    (s' : Sys F (L)) (hr : D.Run nth m as s')
    (n : Nat) (hn : n < D.No) (fuel : Nat) (m' : Buf F) (e : SIRError)
    (hser : D.serialAt n fuel m = .ok (m', e)) (j : Nat) (hj : j < D.len) :
    s'.mem.data (D.base n + j) = m'.data (D.base n + j) := by
  obtain ⟨J, rfl', hNo, hmem, hlen, hbase, hres, _, hpe⟩ := with_job hs hd
  have hab' : Job.aborted as = false := by
    simp only [Job.aborted, List.any_eq_false, beq_iff_eq]
    intro a ha h; subst h; exact hab ha
  have R : J.Runs nth as s' := by
    simp only [Job.Runs, rfl', hNo, hmem]; exact hr
  have hno : ¬ ∃ i, i < J.No ∧ J.err i = .outOfBounds := by
    rintro ⟨i, hi, he⟩
    rw [hNo] at hi
    exact hok i hi (he ▸ hpe i hi)
  have hrun : ¬ s'.running = false := fun h => hno ((R.running_iff h1 hab').mp h)
  have hc := R.column h1 n (by rw [hNo]; exact hn)
  rw [hbase, hlen] at hc
  rcases hc with hc | hc
  · have := (hres n hn fuel m' e hser).1
    exact getCol_eq (hc.trans this.symm) j hj
  · exact absurd hc.2 hrun

/-- two complete runs, with any worker counts and any schedules, end with the same output
matrix. -/
theorem same_matrix (hs : D.Faithful m) (hd : D.Defined m)
    (hok : ∀ n, n < D.No → ¬ D.PointErr m n .outOfBounds)
    (nth₁ nth₂ : Nat) (h1 : 1 ≤ nth₁) (h2 : 1 ≤ nth₂)
    (as₁ as₂ : List Act) (ha₁ : Act.abort ∉ as₁) (ha₂ : Act.abort ∉ as₂)
    (s₁ s₂ : Sys F (L)) (hr₁ : D.Run nth₁ m as₁ s₁) (hr₂ : D.Run nth₂ m as₂ s₂) :
    s₁.mem.size = s₂.mem.size ∧ ∀ i, i < s₁.mem.size → s₁.mem.data i = s₂.mem.data i := by
  obtain ⟨J, rfl', hNo, hmem, hlen, hbase, hres, _, hpe⟩ := with_job hs hd
  have R₁ : J.Runs nth₁ as₁ s₁ := by simp only [Job.Runs, rfl', hNo, hmem]; exact hr₁
  have R₂ : J.Runs nth₂ as₂ s₂ := by simp only [Job.Runs, rfl', hNo, hmem]; exact hr₂
  have e₁ := R₁.frame.1
  have e₂ := R₂.frame.1
  refine ⟨by rw [e₁, e₂], ?_⟩
  intro i _
  by_cases hcol : ∃ n, n < D.No ∧ D.base n ≤ i ∧ i < D.base n + D.len
  · obtain ⟨n, hn, hlo, hhi⟩ := hcol
    obtain ⟨fuel, r, hr⟩ := hd n hn
    have q₁ := columns hs hd nth₁ h1 as₁ ha₁ hok s₁ hr₁ n hn fuel r.1 r.2 hr (i - D.base n)
      (by omega)
    have q₂ := columns hs hd nth₂ h2 as₂ ha₂ hok s₂ hr₂ n hn fuel r.1 r.2 hr (i - D.base n)
      (by omega)
    have hi' : D.base n + (i - D.base n) = i := by omega
    rw [hi'] at q₁ q₂
    rw [q₁, q₂]
  · have hout : ∀ n, n < J.No → i < J.base n ∨ J.base n + J.len ≤ i := by
      intro n hn
      rw [hNo] at hn
      rw [hbase, hlen]
      by_cases h : i < D.base n
      · exact Or.inl h
      · by_cases h' : D.base n + D.len ≤ i
        · exact Or.inr h'
        · exact absurd ⟨n, hn, by omega, by omega⟩ hcol
    rw [R₁.frame.2 i hout, R₂.frame.2 i hout]

/-- with an error level that does not stop, no point stops the run. -/
theorem nonstop_levels (hs : D.Faithful m) (hd : D.Defined m)
    (hl : D.level = .ignore ∨ D.level = .warn ∨ D.level = .none) (n : Nat) (hn : n < D.No) :
    ¬ D.PointErr m n .outOfBounds := by
  intro h
  obtain ⟨J, _, _, _, _, _, _, herr, hpe⟩ := with_job hs hd
  have he := PointErr.unique hs hd hn h (hpe n hn)
  have := herr n hn
  rw [← he] at this
  rcases hl with h | h | h <;> rw [h] at this <;> simp [oobErr] at this

/-- without abort, in every complete run the run flag is down iff the response of some
observation point is out of bounds under error level stop. -/
theorem flag_iff (hs : D.Faithful m) (hd : D.Defined m) (nth : Nat) (h1 : 1 ≤ nth)
    (as : List Act) (hab : Act.abort ∉ as) (s' : Sys F (L)) (hr : D.Run nth m as s') :
    s'.running = false ↔ ∃ n, n < D.No ∧ D.PointErr m n .outOfBounds := by
  obtain ⟨J, rfl', hNo, hmem, hlen, hbase, hres, _, hpe⟩ := with_job hs hd
  have hab' : Job.aborted as = false := by
    simp only [Job.aborted, List.any_eq_false, beq_iff_eq]
    intro a ha h; subst h; exact hab ha
  have R : J.Runs nth as s' := by simp only [Job.Runs, rfl', hNo, hmem]; exact hr
  rw [R.running_iff h1 hab', hNo]
  constructor
  · rintro ⟨i, hi, he⟩; exact ⟨i, hi, he ▸ hpe i hi⟩
  · rintro ⟨i, hi, he⟩; exact ⟨i, hi, PointErr.unique hs hd hi (hpe i hi) he⟩

/-- The error field of worker `w` at the join: it is `none` or the code of a point, and some
worker has a non-`none` field iff some point has a non-`none` code (no abort). -/
theorem worker_errs (hs : D.Faithful m) (hd : D.Defined m) (nth : Nat) (h1 : 1 ≤ nth)
    (as : List Act) (s' : Sys F (L)) (hr : D.Run nth m as s') :
    (∀ w, w < nth → (s'.ws w).err ≠ .none →
      (s'.ws w).err = oobErr D.level ∧
      ∃ n, n < D.No ∧ D.PointErr m n (s'.ws w).err) ∧
    (Act.abort ∉ as → ∀ n, n < D.No → ∀ e, e ≠ .none → D.PointErr m n e →
      ∃ w, w < nth ∧ (s'.ws w).err ≠ .none) := by
  obtain ⟨J, rfl', hNo, hmem, hlen, hbase, hres, herr, hpe⟩ := with_job hs hd
  have R : J.Runs nth as s' := by simp only [Job.Runs, rfl', hNo, hmem]; exact hr
  constructor
  · intro w hw hne
    obtain ⟨n, hlo, hhi, he, _⟩ := R.err_general w hw
    rw [he] at hne ⊢
    obtain ⟨i, hi1, hi2, hi3⟩ := lastErr_mem _ _ _ hne
    have hstop := rangeStart_le J.No nth (w + 1) h1 (by omega)
    rw [← rangeStop_eq] at hstop
    have hi : i < D.No := by omega
    rw [← hi3] at hne ⊢
    refine ⟨?_, i, hi, hpe i hi⟩
    rcases herr i hi with h | h
    · exact absurd h hne
    · exact h
  · intro hab n hn e hne hp
    have hab' : Job.aborted as = false := by
      simp only [Job.aborted, List.any_eq_false, beq_iff_eq]
      intro a ha h; subst h; exact hab ha
    have hen : J.err n = e := PointErr.unique hs hd hn (hpe n hn) hp
    by_cases hrun : s'.running = true
    · obtain ⟨w, hw, h3, h4⟩ := owner_exists J.No nth n h1 (by rw [hNo]; exact hn)
      refine ⟨w, hw, ?_⟩
      rw [R.err w hw hrun]
      intro h
      rw [lastErr_none_iff] at h
      exact hne (hen ▸ h n h3 (by omega))
    · have hrun' : s'.running = false := by simpa using hrun
      obtain ⟨rem, inv⟩ := R.inv
      rcases inv.flag hrun' with h' | ⟨w, hw, i, hlo, hsg, he⟩
      · rw [hab'] at h'; simp at h'
      · refine ⟨w, hw, ?_⟩
        have W := inv.workers w hw
        have hd' := R.done w hw
        rw [W.errv]
        simp only [Job.fin, hd', Job.sig] at hsg ⊢
        intro h
        rw [lastErr_none_iff] at h
        have := h i hlo (by omega)
        rw [he] at this
        simp at this

/-- with two or more workers and no abort, the code the driver returns is the code of the
error level if some observation point has an error, and `none` otherwise. -/
theorem join_many (hs : D.Faithful m) (hd : D.Defined m) (nth : Nat) (h2 : 2 ≤ nth)
    (as : List Act) (hab : Act.abort ∉ as) (s' : Sys F (L)) (hr : D.Run nth m as s') :
    ((∃ n, n < D.No ∧ ∃ e, e ≠ SIRError.none ∧ D.PointErr m n e) →
      returned nth s' = oobErr D.level) ∧
    ((∀ n, n < D.No → D.PointErr m n .none) → returned nth s' = .none) := by
  obtain ⟨hw1, hw2⟩ := worker_errs hs hd nth (by omega) as s' hr
  have hj : returned nth s' = lastErr (fun w => (s'.ws w).err) 0 nth := by
    simp only [returned, joinErr]
    rw [if_pos (by omega)]
    exact foldl_last _ _
  rw [hj]
  constructor
  · rintro ⟨n, hn, e, hne, hp⟩
    obtain ⟨w, hw, hwe⟩ := hw2 hab n hn e hne hp
    have hne' : lastErr (fun w => (s'.ws w).err) 0 nth ≠ .none := by
      intro h
      rw [lastErr_none_iff] at h
      exact hwe (h w (by omega) (by omega))
    obtain ⟨v, _, hv, hve⟩ := lastErr_mem _ _ _ hne'
    rw [← hve] at hne' ⊢
    exact (hw1 v (by omega) hne').1
  · intro hall
    rw [lastErr_none_iff]
    intro w _ hw
    by_cases h : (s'.ws w).err = .none
    · exact h
    · obtain ⟨_, n, hn, hp⟩ := hw1 w (by omega) h
      exact absurd (PointErr.unique hs hd hn hp (hall n hn)) h

/-- with or without abort: a code different from `none` is the code of some observation
point. -/
theorem join_sound (hs : D.Faithful m) (hd : D.Defined m) (nth : Nat) (h1 : 1 ≤ nth)
    (as : List Act) (s' : Sys F (L)) (hr : D.Run nth m as s')
    (he : returned nth s' ≠ .none) :
    ∃ n, n < D.No ∧ D.PointErr m n (returned nth s') := by
  obtain ⟨hw1, _⟩ := worker_errs hs hd nth h1 as s' hr
  by_cases h2 : nth > 1
  · have hj : returned nth s' = lastErr (fun w => (s'.ws w).err) 0 nth := by
      simp only [returned, joinErr]
      rw [if_pos h2]
      exact foldl_last _ _
    rw [hj] at he ⊢
    obtain ⟨v, _, hv, hve⟩ := lastErr_mem _ _ _ he
    rw [← hve] at he ⊢
    exact (hw1 v (by omega) he).2
  · simp [returned, joinErr, h2] at he

omit [Arith F] in
/-- with one worker the returned code is `none` for every run, although the run flag may
be down because of an out-of-bounds response (`flag_iff`). -/
theorem join_one (D : Drv F L) (m : Buf F) (as : List Act) (s' : Sys F (L))
    (_ : D.Run 1 m as s') : returned 1 s' = .none := rfl

/-- the spherical driver returns `out_of_bounds` iff there are at least two workers and
some point is out of bounds under stop; otherwise it returns `none`, whatever warnings there
were. -/
theorem sphere_join (hs : D.Faithful m) (hd : D.Defined m) (nth : Nat) (h2 : 2 ≤ nth)
    (as : List Act) (hab : Act.abort ∉ as) (s' : Sys F (L)) (hr : D.Run nth m as s') :
    ((∃ n, n < D.No ∧ D.PointErr m n .outOfBounds) → returnedSphere nth s' = .outOfBounds) ∧
    ((¬ ∃ n, n < D.No ∧ D.PointErr m n .outOfBounds) → returnedSphere nth s' = .none) := by
  obtain ⟨hw1, hw2⟩ := worker_errs hs hd nth (by omega) as s' hr
  have key : ∀ k, ((∃ w, w < k ∧ (s'.ws w).err = .outOfBounds) ∧ (List.range k).foldl
      (fun e w => if e = SIRError.outOfBounds ∨ (s'.ws w).err = .outOfBounds then
        SIRError.outOfBounds else e) .none = .outOfBounds) ∨
      ((¬ ∃ w, w < k ∧ (s'.ws w).err = .outOfBounds) ∧ (List.range k).foldl
      (fun e w => if e = SIRError.outOfBounds ∨ (s'.ws w).err = .outOfBounds then
        SIRError.outOfBounds else e) .none = .none) := by
    intro k
    induction k with
    | zero => right; simp
    | succ k ih =>
      rw [List.range_succ, List.foldl_append]
      simp only [List.foldl_cons, List.foldl_nil]
      rcases ih with ⟨⟨w, hw, he⟩, ih⟩ | ⟨h, ih⟩
      · left
        exact ⟨⟨w, by omega, he⟩, by rw [ih, if_pos (Or.inl rfl)]⟩
      · rw [ih]
        by_cases h' : (s'.ws k).err = .outOfBounds
        · left
          exact ⟨⟨k, by omega, h'⟩, by rw [if_pos (Or.inr h')]⟩
        · right
          refine ⟨?_, by rw [if_neg (by simp [h'])]⟩
          rintro ⟨w, hw, he⟩
          by_cases hwk : w = k
          · exact h' (hwk ▸ he)
          · exact h ⟨w, by omega, he⟩
  have hj : returnedSphere nth s' = (List.range nth).foldl
      (fun e w => if e = SIRError.outOfBounds ∨ (s'.ws w).err = .outOfBounds then
        SIRError.outOfBounds else e) .none := by
    simp only [returnedSphere, joinErrSphere]
    rw [if_pos (by omega)]
  rw [hj]
  constructor
  · rintro ⟨n, hn, hp⟩
    obtain ⟨w, hw, hwe⟩ := hw2 hab n hn _ (by simp) hp
    have h3 := (hw1 w hw hwe).1
    have h4 : oobErr D.level = .outOfBounds := by
      obtain ⟨J, _, _, _, _, _, _, herr, hpe⟩ := with_job hs hd
      have h5 := PointErr.unique hs hd hn (hpe n hn) hp
      rcases herr n hn with h6 | h6
      · rw [h6] at h5; simp at h5
      · rw [← h6, h5]
    rcases key nth with h5 | h5
    · exact h5.2
    · exact absurd ⟨w, hw, h3.trans h4⟩ h5.1
  · intro hno
    rcases key nth with h5 | h5
    rotate_left
    · exact h5.2
    exfalso
    obtain ⟨w, hw, he⟩ := h5.1
    obtain ⟨_, n, hn, hp⟩ := hw1 w hw (by rw [he]; simp)
    exact hno ⟨n, hn, he ▸ hp⟩

/-- in every complete run, aborted or not, each output column is either exactly as before
the call or exactly the full response of its observation point; after an abort the flag is
down, so the wrapper raises an error. -/
theorem whole_columns (hs : D.Faithful m) (hd : D.Defined m) (nth : Nat) (h1 : 1 ≤ nth)
    (as : List Act) (s' : Sys F (L)) (hr : D.Run nth m as s') :
    (∀ n, n < D.No →
      (∀ fuel m' e, D.serialAt n fuel m = .ok (m', e) →
        ∀ j, j < D.len → s'.mem.data (D.base n + j) = m'.data (D.base n + j)) ∨
      (∀ j, j < D.len → s'.mem.data (D.base n + j) = m.data (D.base n + j))) ∧
    (Act.abort ∈ as → s'.running = false ∧
      (wrapper s'.running (returned nth s') = .errCtrlC ∨
       wrapper s'.running (returned nth s') = .errOutOfBounds)) := by
  obtain ⟨J, rfl', hNo, hmem, hlen, hbase, hres, herr, hpe⟩ := with_job hs hd
  have R : J.Runs nth as s' := by simp only [Job.Runs, rfl', hNo, hmem]; exact hr
  constructor
  · intro n hn
    have hc := R.column h1 n (by rw [hNo]; exact hn)
    rw [hbase, hlen] at hc
    rcases hc with hc | hc
    · left
      intro fuel m' e hser j hj
      exact getCol_eq (hc.trans (hres n hn fuel m' e hser).1.symm) j hj
    · right
      intro j hj
      have h2 := hc.1
      simp only [Job.c0, hbase, hlen, hmem] at h2
      exact getCol_eq h2 j hj
  · intro hab
    obtain ⟨rem, inv⟩ := R.inv
    have hf := inv.flag' (by
      simp only [Job.aborted, List.any_eq_true, beq_iff_eq]
      exact ⟨_, hab, rfl⟩)
    refine ⟨hf, ?_⟩
    simp only [wrapper, hf]
    by_cases h : returned nth s' = .outOfBounds <;> simp [h]

omit [Arith F] in
/-- let the flag be down at some moment (state `s`) of any run; whatever happens next, the
flag stays down and each worker's loop counter advances by at most one column. -/
theorem at_most_one_more (D : Drv F L) (as : List Act) (s s' : Sys F (L))
    (hflag : s.running = false) (h : exec D.task as s = .ok s') (w : Nat) :
    s'.running = false ∧ (s.ws w).n ≤ (s'.ws w).n ∧ (s'.ws w).n ≤ (s.ws w).n + 1 := by
  have := exec_after_clear as h hflag w (s.ws w).n (Or.inl rfl)
  refine ⟨this.1, ?_⟩
  rcases this.2 with h | h <;> omega

/-- no schedule ever gets stuck or runs into undefined behaviour, and there is a bound
`B w` such that every worker that has been given `B w` steps has returned. -/
theorem terminates (hs : D.Faithful m) (hd : D.Defined m) (nth : Nat) :
    (∀ as, ∃ s', exec D.task as (initSys D.No nth m) = .ok s') ∧
    ∃ B : Nat → Nat, ∀ as s', exec D.task as (initSys D.No nth m) = .ok s' →
      ∀ w, w < nth → B w ≤ as.count (.step w) → s'.isDone w := by
  obtain ⟨J, rfl', hNo, hmem, hlen, hbase, hres, herr, hpe⟩ := with_job hs hd
  subst hmem
  rw [← rfl', ← hNo]
  exact ⟨fun as => J.exec_defined nth as,
    ⟨_, fun as s' h w hw hc => J.done_of_count as s' h w hw hc⟩⟩

/-- A schedule that gives each of `nth` workers `k` steps. -/
def roundRobin (nth k : Nat) : List Act :=
  (List.replicate k ((List.range nth).map Act.step)).flatten

/-- a complete run always exists (so the theorems about complete runs speak about
something). -/
theorem run_exists (hs : D.Faithful m) (hd : D.Defined m) (nth : Nat) :
    ∃ k s', Act.abort ∉ roundRobin nth k ∧ D.Run nth m (roundRobin nth k) s' := by
  obtain ⟨h1, B, hB⟩ := terminates hs hd nth
  have hmax : ∃ k, ∀ w, w < nth → B w ≤ k := by
    clear h1 hB
    induction nth with
    | zero => exact ⟨0, fun w h => absurd h (by omega)⟩
    | succ n ih =>
      obtain ⟨k, hk⟩ := ih
      refine ⟨k + B n, fun w hw => ?_⟩
      by_cases h : w = n
      · subst h; omega
      · have := hk w (by omega); omega
  obtain ⟨k, hk⟩ := hmax
  obtain ⟨s', hs'⟩ := h1 (roundRobin nth k)
  refine ⟨k, s', ?_, hs', ?_⟩
  · intro h
    simp only [roundRobin, List.mem_flatten] at h
    obtain ⟨l, hl, ha⟩ := h
    rw [List.mem_replicate] at hl
    rw [hl.2] at ha
    simp at ha
  · intro w hw
    refine hB _ _ hs' w hw ?_
    have hc : ∀ j, j ≤ (roundRobin nth j).count (.step w) := by
      intro j
      induction j with
      | zero => omega
      | succ j ih =>
        simp only [roundRobin, List.replicate_succ, List.flatten_cons, List.count_append] at ih ⊢
        have : 1 ≤ ((List.range nth).map Act.step).count (.step w) := by
          rw [List.one_le_count_iff]
          exact List.mem_map.mpr ⟨w, List.mem_range.mpr hw, rfl⟩
        omega
    exact Nat.le_trans (hk w hw) (hc k)

/-- what the user sees after a run without abort, as a function of the responses of the
single points and of whether there is more than one worker. -/
theorem user_outcome (hs : D.Faithful m) (hd : D.Defined m) (nth : Nat) (h1 : 1 ≤ nth)
    (as : List Act) (hab : Act.abort ∉ as) (s' : Sys F (L)) (hr : D.Run nth m as s') :
    wrapper s'.running (returned nth s') =
      (open Classical in
      if ∃ n, n < D.No ∧ D.PointErr m n .outOfBounds then
        (if 2 ≤ nth then .errOutOfBounds else .errCtrlC)
      else if (∃ n, n < D.No ∧ D.PointErr m n .warnOutOfBounds) ∧ 2 ≤ nth then .valueWithWarning
      else .value) := by
  have hC4 := flag_iff hs hd nth h1 as hab s' hr
  obtain ⟨J, _, _, _, _, _, _, herr, hpe⟩ := with_job hs hd
  by_cases h : ∃ n, n < D.No ∧ D.PointErr m n .outOfBounds
  · rw [if_pos h]
    have hrun := hC4.mpr h
    obtain ⟨n, hn, hp⟩ := h
    by_cases h2 : 2 ≤ nth
    · rw [if_pos h2]
      have h3 := (join_many hs hd nth h2 as hab s' hr).1 ⟨n, hn, _, by simp, hp⟩
      have h5 := PointErr.unique hs hd hn (hpe n hn) hp
      have h4 : oobErr D.level = .outOfBounds := by
        rcases herr n hn with h6 | h6
        · rw [h6] at h5; simp at h5
        · rw [← h6, h5]
      simp [wrapper, hrun, h3, h4]
    · rw [if_neg h2]
      have : nth = 1 := by omega
      subst this
      rw [join_one D m as s' hr]
      simp [wrapper, hrun]
  · rw [if_neg h]
    have hrun : s'.running = true := by
      cases hb : s'.running with
      | true => rfl
      | false => exact absurd (hC4.mp hb) h
    by_cases h2 : 2 ≤ nth
    · by_cases h3 : ∃ n, n < D.No ∧ D.PointErr m n .warnOutOfBounds
      · rw [if_pos ⟨h3, h2⟩]
        obtain ⟨n, hn, hp⟩ := h3
        have h4 := (join_many hs hd nth h2 as hab s' hr).1 ⟨n, hn, _, by simp, hp⟩
        have h5 := PointErr.unique hs hd hn (hpe n hn) hp
        have h6 : oobErr D.level = .warnOutOfBounds := by
          rcases herr n hn with h6 | h6
          · rw [h6] at h5; simp at h5
          · rw [← h6, h5]
        simp [wrapper, hrun, h4, h6]
      · rw [if_neg (fun h => h3 h.1)]
        have h4 : returned nth s' ≠ .warnOutOfBounds := by
          intro h5
          have := join_sound hs hd nth h1 as s' hr (by rw [h5]; simp)
          rw [h5] at this
          exact h3 this
        simp [wrapper, hrun, h4]
    · rw [if_neg (fun h => h2 h.2)]
      have : nth = 1 := by omega
      subst this
      rw [join_one D m as s' hr]
      simp [wrapper, hrun]


end Drv

end Dream
