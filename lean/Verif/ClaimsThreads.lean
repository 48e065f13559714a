import Verif.ErrSpec
import Verif.Toy

/-
C01-C08 and C42: partition, thread count, schedules, error codes, abort, termination,
host-language result.
-/

namespace Dream

variable {F : Type} [Arith F]

/-! ### C01 -/

/-- C01: for every `No` and every number of workers the ranges are consecutive, start at 0,
end at `No`, and every observation point is in exactly one of them. -/
theorem C01_partition (No nth : Nat) (h : 1 ≤ nth) :
    rangeStart No nth 0 = 0 ∧ rangeStop No nth (nth - 1) = No ∧
    (∀ w, rangeStart No nth w ≤ rangeStop No nth w) ∧
    (∀ w, rangeStop No nth w = rangeStart No nth (w + 1)) ∧
    (∀ i, i < No → ∃ w, (w < nth ∧ rangeStart No nth w ≤ i ∧ i < rangeStop No nth w) ∧
      ∀ v, v < nth → rangeStart No nth v ≤ i → i < rangeStop No nth v → v = w) ∧
    (∀ w, w < nth → ∀ i, i < rangeStop No nth w → i < No) := by
  refine ⟨rangeStart_zero _ _, ?_, fun w => rangeStart_mono _ _ (by omega),
    fun w => rangeStop_eq _ _ _, ?_, ?_⟩
  · rw [rangeStop_eq, Nat.sub_add_cancel h]; exact rangeStart_last _ _ h
  · intro i hi
    obtain ⟨w, hw, h1, h2⟩ := owner_exists No nth i h hi
    exact ⟨w, ⟨hw, h1, h2⟩, fun v _ h3 h4 => owner_unique No nth i v w ⟨h3, h4⟩ ⟨h1, h2⟩⟩
  · intro w hw i hi
    have := rangeStart_le No nth (w + 1) h (by omega)
    rw [← rangeStop_eq] at this
    omega

-- 10 points on 4 workers
example : (List.range 4).map (fun w => (rangeStart 10 4 w, rangeStop 10 4 w)) =
    [(0, 2), (2, 5), (5, 7), (7, 10)] := by decide

/-! ### C02 -/

/-- C02: the number of workers, for every hardware concurrency `hw`, setting `env` of
`DREAM_NUM_THREADS` and number of columns `No`. -/
theorem C02_clamp (hw : Nat) (env : Option Nat) (No : Nat) :
    1 ≤ numThreads hw env No ∧
    numThreads hw env No ≤ max 1 hw ∧
    (∀ e, env = some e → 1 ≤ e → numThreads hw env No ≤ e) ∧
    (1 ≤ No → numThreads hw env No ≤ No) ∧
    (env = some 0 → numThreads hw env No = 1) ∧
    (env = none → 1 ≤ hw → hw ≤ No → numThreads hw env No = hw) ∧
    (∀ e, env = some e → 1 ≤ e → e ≤ hw → e ≤ No → numThreads hw env No = e) := by
  unfold numThreads
  refine ⟨?_, ?_, ?_, ?_, ?_, ?_, ?_⟩
  · dsimp only; generalize (ite (_ > No) _ _ : Nat) = q; split <;> omega
  · simp only; cases env with
    | none => simp only; repeat' split
              all_goals omega
    | some e => simp only; repeat' split
                all_goals omega
  · rintro e rfl he
    simp only; repeat' split
    all_goals omega
  · intro h
    simp only; cases env with
    | none => simp only; repeat' split
              all_goals omega
    | some e => simp only; repeat' split
                all_goals omega
  · rintro rfl
    simp only; repeat' split
    all_goals omega
  · rintro rfl h1 h2
    simp only; repeat' split
    all_goals omega
  · rintro e rfl h1 h2 h3
    simp only; repeat' split
    all_goals omega

/-- C02: with at least one column no worker gets an empty range. -/
theorem C02_no_idle_worker (hw : Nat) (env : Option Nat) (No w : Nat) (hN : 1 ≤ No) :
    rangeStart No (numThreads hw env No) w < rangeStop No (numThreads hw env No) w := by
  have h1 := (C02_clamp hw env No).1
  have h2 := (C02_clamp hw env No).2.2.2.1 hN
  generalize numThreads hw env No = nth at *
  unfold rangeStart rangeStop
  have h3 : (w + 1) * No = w * No + No := by rw [Nat.add_mul, Nat.one_mul]
  rw [h3]
  have h4 : (w * No + nth) / nth ≤ (w * No + No) / nth :=
    Nat.div_le_div_right (by omega)
  rw [Nat.add_div_right _ (by omega)] at h4
  omega

example : numThreads 8 none 3 = 3 ∧ numThreads 8 (some 2) 100 = 2 ∧ numThreads 0 none 5 = 1 ∧
    numThreads 8 (some 0) 100 = 1 := by decide

/-! ### C03 - C08 -/

open SirCall

section Runs
variable {D : SirCall F} {m : Buf F}

/-- C03: if no point stops the run and nobody aborts, then for every worker count and every
schedule that reaches the join, each sample of each output column is the one the serial kernel
computes for that observation point from the initial matrix. -/
theorem C03_columns (hs : D.Sized m) (hd : D.Defined m) (nth : Nat) (h1 : 1 ≤ nth)
    (as : List Act) (hab : Act.abort ∉ as)
    (hok : ∀ n, n < D.No → ¬ D.PointErr m n .outOfBounds)
    (s' : Sys F (KLoc F)) (hr : D.Run nth m as s')
    (n : Nat) (hn : n < D.No) (fuel : Nat) (m' : Buf F) (e : SIRError)
    (hser : D.serialAt n fuel m = .ok (m', e)) (j : Nat) (hj : j < D.nt) :
    s'.mem.data (n * D.nt + j) = m'.data (n * D.nt + j) :=
  Drv.columns (D := D.drv) (faithful hs) hd nth h1 as hab hok s' hr n hn fuel m' e hser j hj

/-- C03: two complete runs, with any worker counts and any schedules, end with the same output
matrix. -/
theorem C03_same_matrix (hs : D.Sized m) (hd : D.Defined m)
    (hok : ∀ n, n < D.No → ¬ D.PointErr m n .outOfBounds)
    (nth₁ nth₂ : Nat) (h1 : 1 ≤ nth₁) (h2 : 1 ≤ nth₂)
    (as₁ as₂ : List Act) (ha₁ : Act.abort ∉ as₁) (ha₂ : Act.abort ∉ as₂)
    (s₁ s₂ : Sys F (KLoc F)) (hr₁ : D.Run nth₁ m as₁ s₁) (hr₂ : D.Run nth₂ m as₂ s₂) :
    s₁.mem.size = s₂.mem.size ∧ ∀ i, i < s₁.mem.size → s₁.mem.data i = s₂.mem.data i :=
  Drv.same_matrix (D := D.drv) (faithful hs) hd hok nth₁ nth₂ h1 h2 as₁ as₂ ha₁ ha₂ s₁ s₂ hr₁ hr₂

/-- C03: with an error level that does not stop, no point stops the run. -/
theorem C03_nonstop_levels (hs : D.Sized m) (hd : D.Defined m)
    (hl : D.level = .ignore ∨ D.level = .warn ∨ D.level = .none) (n : Nat) (hn : n < D.No) :
    ¬ D.PointErr m n .outOfBounds :=
  Drv.nonstop_levels (D := D.drv) (faithful hs) hd hl n hn

/-- C04: without abort, in every complete run the run flag is down iff the response of some
observation point is out of bounds under error level stop. -/
theorem C04_flag (hs : D.Sized m) (hd : D.Defined m) (nth : Nat) (h1 : 1 ≤ nth)
    (as : List Act) (hab : Act.abort ∉ as) (s' : Sys F (KLoc F)) (hr : D.Run nth m as s') :
    s'.running = false ↔ ∃ n, n < D.No ∧ D.PointErr m n .outOfBounds :=
  Drv.flag_iff (D := D.drv) (faithful hs) hd nth h1 as hab s' hr

/-- C05: with two or more workers and no abort, the code the driver returns is the code of the
error level if some observation point has an error, and `none` otherwise. -/
theorem C05_join_many (hs : D.Sized m) (hd : D.Defined m) (nth : Nat) (h2 : 2 ≤ nth)
    (as : List Act) (hab : Act.abort ∉ as) (s' : Sys F (KLoc F)) (hr : D.Run nth m as s') :
    ((∃ n, n < D.No ∧ ∃ e, e ≠ SIRError.none ∧ D.PointErr m n e) →
      returned nth s' = codeOf D.level) ∧
    ((∀ n, n < D.No → D.PointErr m n .none) → returned nth s' = .none) := by
  rw [← oobErr_eq]
  exact Drv.join_many (D := D.drv) (faithful hs) hd nth h2 as hab s' hr

/-- C05, with or without abort: a code different from `none` is the code of some observation
point. -/
theorem C05_join_sound (hs : D.Sized m) (hd : D.Defined m) (nth : Nat) (h1 : 1 ≤ nth)
    (as : List Act) (s' : Sys F (KLoc F)) (hr : D.Run nth m as s')
    (he : returned nth s' ≠ .none) :
    ∃ n, n < D.No ∧ D.PointErr m n (returned nth s') :=
  Drv.join_sound (D := D.drv) (faithful hs) hd nth h1 as s' hr he

/-- C05: with one worker the returned code is `none` for every run, although the run flag may
be down because of an out-of-bounds response (`C04_flag`). -/
theorem C05_join_one (D : SirCall F) (m : Buf F) (as : List Act) (s' : Sys F (KLoc F))
    (_ : D.Run 1 m as s') : returned 1 s' = .none := rfl

/-- C06: the spherical driver returns `out_of_bounds` iff there are at least two workers and
some point is out of bounds under stop; otherwise it returns `none`, whatever warnings there
were. -/
theorem C06_sphere_join (hs : D.Sized m) (hd : D.Defined m) (nth : Nat) (h2 : 2 ≤ nth)
    (as : List Act) (hab : Act.abort ∉ as) (s' : Sys F (KLoc F)) (hr : D.Run nth m as s') :
    ((∃ n, n < D.No ∧ D.PointErr m n .outOfBounds) → returnedSphere nth s' = .outOfBounds) ∧
    ((¬ ∃ n, n < D.No ∧ D.PointErr m n .outOfBounds) → returnedSphere nth s' = .none) :=
  Drv.sphere_join (D := D.drv) (faithful hs) hd nth h2 as hab s' hr

/-- C07: in every complete run, aborted or not, each output column is either exactly as before
the call or exactly the full response of its observation point; after an abort the flag is
down, so the wrapper raises an error. -/
theorem C07_whole_columns (hs : D.Sized m) (hd : D.Defined m) (nth : Nat) (h1 : 1 ≤ nth)
    (as : List Act) (s' : Sys F (KLoc F)) (hr : D.Run nth m as s') :
    (∀ n, n < D.No →
      (∀ fuel m' e, D.serialAt n fuel m = .ok (m', e) →
        ∀ j, j < D.nt → s'.mem.data (n * D.nt + j) = m'.data (n * D.nt + j)) ∨
      (∀ j, j < D.nt → s'.mem.data (n * D.nt + j) = m.data (n * D.nt + j))) ∧
    (Act.abort ∈ as → s'.running = false ∧
      (wrapper s'.running (returned nth s') = .errCtrlC ∨
       wrapper s'.running (returned nth s') = .errOutOfBounds)) :=
  Drv.whole_columns (D := D.drv) (faithful hs) hd nth h1 as s' hr

/-- C07: let the flag be down at some moment (state `s`) of any run; whatever happens next, the
flag stays down and each worker's loop counter advances by at most one column. -/
theorem C07_at_most_one_more (D : SirCall F) (as : List Act) (s s' : Sys F (KLoc F))
    (hflag : s.running = false) (h : exec D.task as s = .ok s') (w : Nat) :
    s'.running = false ∧ (s.ws w).n ≤ (s'.ws w).n ∧ (s'.ws w).n ≤ (s.ws w).n + 1 :=
  Drv.at_most_one_more D.drv as s s' hflag h w

/-- C08: no schedule ever gets stuck or runs into undefined behaviour, and there is a bound
`B w` such that every worker that has been given `B w` steps has returned. -/
theorem C08_terminates (hs : D.Sized m) (hd : D.Defined m) (nth : Nat) :
    (∀ as, ∃ s', exec D.task as (initSys D.No nth m) = .ok s') ∧
    ∃ B : Nat → Nat, ∀ as s', exec D.task as (initSys D.No nth m) = .ok s' →
      ∀ w, w < nth → B w ≤ as.count (.step w) → s'.isDone w :=
  Drv.terminates (D := D.drv) (faithful hs) hd nth

/-- C08: a complete run always exists (so the theorems about complete runs speak about
something). -/
theorem C08_run_exists (hs : D.Sized m) (hd : D.Defined m) (nth : Nat) :
    ∃ k s', Act.abort ∉ Drv.roundRobin nth k ∧ D.Run nth m (Drv.roundRobin nth k) s' :=
  Drv.run_exists (D := D.drv) (faithful hs) hd nth

/-! ### C42 -/

/-- C42: what the user sees after a run without abort, as a function of the responses of the
single points and of whether there is more than one worker. -/
theorem C42_user_outcome (hs : D.Sized m) (hd : D.Defined m) (nth : Nat) (h1 : 1 ≤ nth)
    (as : List Act) (hab : Act.abort ∉ as) (s' : Sys F (KLoc F)) (hr : D.Run nth m as s') :
    wrapper s'.running (returned nth s') =
      (open Classical in
      if ∃ n, n < D.No ∧ D.PointErr m n .outOfBounds then
        (if 2 ≤ nth then .errOutOfBounds else .errCtrlC)
      else if (∃ n, n < D.No ∧ D.PointErr m n .warnOutOfBounds) ∧ 2 ≤ nth then .valueWithWarning
      else .value) :=
  Drv.user_outcome (D := D.drv) (faithful hs) hd nth h1 as hab s' hr

/-- C42 for `dreamsphere`: the same, but the warning is never given. -/
theorem C42_sphere_outcome (hs : D.Sized m) (hd : D.Defined m) (nth : Nat) (h1 : 1 ≤ nth)
    (as : List Act) (hab : Act.abort ∉ as) (s' : Sys F (KLoc F)) (hr : D.Run nth m as s') :
    wrapper s'.running (returnedSphere nth s') =
      (open Classical in
      if ∃ n, n < D.No ∧ D.PointErr m n .outOfBounds then
        (if 2 ≤ nth then .errOutOfBounds else .errCtrlC)
      else .value) := by
  have hf := C04_flag hs hd nth h1 as hab s' hr
  by_cases h2 : 2 ≤ nth
  · have hj := C06_sphere_join hs hd nth h2 as hab s' hr
    by_cases h : ∃ n, n < D.No ∧ D.PointErr m n .outOfBounds
    · rw [if_pos h, if_pos h2, hj.1 h, hf.mpr h]; rfl
    · rw [if_neg h, hj.2 h]
      cases hb : s'.running with
      | true => rfl
      | false => exact absurd (hf.mp hb) h
  · have : nth = 1 := by omega
    subst this
    have h0 : returnedSphere 1 s' = .none := rfl
    rw [h0]
    by_cases h : ∃ n, n < D.No ∧ D.PointErr m n .outOfBounds
    · rw [if_pos h, if_neg h2, hf.mpr h]; rfl
    · rw [if_neg h]
      cases hb : s'.running with
      | true => rfl
      | false => exact absurd (hf.mp hb) h

end Runs

/-! ### The hypotheses can be met -/

section Examples
attribute [local instance] toyArith

theorem toySized (l : ErrorLevel) : (toyCall l).Sized toyOut := ⟨rfl, rfl, rfl⟩

/-- Serial results for the two points: the first is in bounds, the second is not. -/
theorem toy_point (l : ErrorLevel) :
    (∃ m', (toyCall l).serialAt 0 5 toyOut = .ok (m', .none)) ∧
    (∃ m', (toyCall l).serialAt 1 5 toyOut = .ok (m', codeOf l)) := by
  cases l <;> exact ⟨⟨_, rfl⟩, ⟨_, rfl⟩⟩

theorem toyDefined (l : ErrorLevel) : (toyCall l).Defined toyOut := by
  intro n hn
  have : n = 0 ∨ n = 1 := by
    have : n < 2 := hn
    omega
  rcases this with rfl | rfl
  · obtain ⟨m', h⟩ := (toy_point l).1; exact ⟨5, _, h⟩
  · obtain ⟨m', h⟩ := (toy_point l).2; exact ⟨5, _, h⟩

-- C03: 'warn' runs meet the hypotheses, and a complete run exists for every worker count
example : (∀ n, n < (toyCall .warn).No → ¬ (toyCall .warn).PointErr toyOut n .outOfBounds) ∧
    ∀ nth, ∃ as s', Act.abort ∉ as ∧ (toyCall .warn).Run nth toyOut as s' :=
  ⟨C03_nonstop_levels (toySized _) (toyDefined _) (Or.inr (Or.inl rfl)),
   fun nth => let ⟨_, s', h⟩ := C08_run_exists (toySized _) (toyDefined _) nth
     ⟨_, s', h⟩⟩

-- the first column really receives something: sample 5 is changed by the serial kernel
example : ∃ m', (toyCall .warn).serialAt 0 5 toyOut = .ok (m', .none) ∧
    m'.data 5 ≠ toyOut.data 5 := ⟨_, rfl, by decide⟩

-- C04, C05, C42: under 'stop' the second point is out of bounds
example : ∃ n, n < (toyCall .stop).No ∧ (toyCall .stop).PointErr toyOut n .outOfBounds :=
  ⟨1, by decide, 5, let ⟨m', h⟩ := (toy_point .stop).2; ⟨m', h⟩⟩

/-- C42 at work: the same call is reported as "out of bounds" with two workers and as "CTRL-C
pressed" with one worker, and a warning is lost with one worker. -/
theorem C42_example (as₁ as₂ as₃ : List Act) (s₁ s₂ s₃ : Sys Int (KLoc Int))
    (a₁ : Act.abort ∉ as₁) (a₂ : Act.abort ∉ as₂) (a₃ : Act.abort ∉ as₃)
    (r₁ : (toyCall .stop).Run 2 toyOut as₁ s₁) (r₂ : (toyCall .stop).Run 1 toyOut as₂ s₂)
    (r₃ : (toyCall .warn).Run 1 toyOut as₃ s₃) :
    wrapper s₁.running (returned 2 s₁) = .errOutOfBounds ∧
    wrapper s₂.running (returned 1 s₂) = .errCtrlC ∧
    wrapper s₃.running (returned 1 s₃) = .value := by
  have hst : ∃ n, n < (toyCall .stop).No ∧ (toyCall .stop).PointErr toyOut n .outOfBounds :=
    ⟨1, by decide, 5, let ⟨m', h⟩ := (toy_point .stop).2; ⟨m', h⟩⟩
  refine ⟨?_, ?_, ?_⟩
  · rw [C42_user_outcome (toySized _) (toyDefined _) 2 (by omega) as₁ a₁ s₁ r₁, if_pos hst]; rfl
  · rw [C42_user_outcome (toySized _) (toyDefined _) 1 (by omega) as₂ a₂ s₂ r₂, if_pos hst]; rfl
  · rw [C42_user_outcome (toySized _) (toyDefined _) 1 (by omega) as₃ a₃ s₃ r₃, if_neg, if_neg]
    · simp
    · rintro ⟨n, hn, hp⟩
      exact C03_nonstop_levels (toySized _) (toyDefined _) (Or.inr (Or.inl rfl)) n hn hp

end Examples

end Dream
