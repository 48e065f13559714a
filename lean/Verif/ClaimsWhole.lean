import Verif.Whole
import Verif.ClaimsGeo
import Verif.ClaimsArgs
import Verif.ClaimsArgsReal
import Verif.ClaimsAttLaw
import Verif.Superpos

/-
C82: whole calls.
-/

namespace Dream
open Arith Finset

/-! ### The drivers -/

section Generic
variable {F : Type} [Arith F] {L : Type}

/-- What the caller gets from the codes and columns of the single observation points, when there are
`nth` workers. -/
noncomputable def Drv.expected (D : Drv F L) (T : Tail) (nth : Nat) (err : Nat → SIRError)
    (res : Nat → Nat → F) : Seen F :=
  open Classical in
  if ∃ n, n < D.No ∧ err n = .outOfBounds then .failed (decide (2 ≤ nth))
  else .matrix
    (decide (T.warns = true ∧ T.sphere = false ∧ 2 ≤ nth ∧ ∃ n, n < D.No ∧ err n = .warnOutOfBounds))
    (if T.second then
      some (if T.sphere = false ∧ 2 ≤ nth ∧ ∃ n, n < D.No ∧ err n ≠ .none then codeOf D.level else .none)
     else none)
    D.len D.No (fun i n => if i < D.len ∧ n < D.No then res n i else lit 0)

/-- A schedule that gives worker `w` a turn again and again gives it any number of turns. -/
theorem fair_count (σ : Nat → Act) (w : Nat) (h : ∀ k, ∃ j, k ≤ j ∧ σ j = .step w) (b : Nat) :
    ∃ k, ∀ k', k ≤ k' → b ≤ ((List.range k').map σ).count (.step w) := by
  induction b with
  | zero => exact ⟨0, fun _ _ => Nat.zero_le _⟩
  | succ b ih =>
    obtain ⟨k, hk⟩ := ih
    obtain ⟨j, hj, hσ⟩ := h k
    refine ⟨j + 1, fun k' hk' => ?_⟩
    obtain ⟨d, rfl⟩ := Nat.exists_eq_add_of_le hk'
    rw [List.range_add, List.map_append, List.count_append, List.range_succ, List.map_append,
      List.count_append]
    have := hk j hj
    simp [hσ]
    omega

theorem fair_all (σ : Nat → Act) (nth : Nat) (h : ∀ w, w < nth → ∀ k, ∃ j, k ≤ j ∧ σ j = .step w)
    (B : Nat → Nat) : ∃ k, ∀ w, w < nth → B w ≤ ((List.range k).map σ).count (.step w) := by
  have : ∀ n, n ≤ nth → ∃ k, ∀ k', k ≤ k' → ∀ w, w < n →
      B w ≤ ((List.range k').map σ).count (.step w) := by
    intro n
    induction n with
    | zero => exact fun _ => ⟨0, fun _ _ w hw => absurd hw (by omega)⟩
    | succ n ih =>
      intro hn
      obtain ⟨k, hk⟩ := ih (by omega)
      obtain ⟨k2, hk2⟩ := fair_count σ n (h n (by omega)) (B n)
      refine ⟨max k k2, fun k' hk' w hw => ?_⟩
      by_cases e : w = n
      · subst e; exact hk2 k' (le_trans (le_max_right _ _) hk')
      · exact hk k' (le_trans (le_max_left _ _) hk') w (by omega)
  obtain ⟨k, hk⟩ := this nth le_rfl
  exact ⟨k, hk k le_rfl⟩

theorem Drv.result_eq {D : Drv F L} {m : Buf F} (T : Tail) (hs : D.Faithful m) (err : Nat → SIRError)
    (res : Nat → Nat → F)
    (h : ∀ n, n < D.No → ∃ fuel m', D.serialAt n fuel m = .ok (m', err n) ∧
      (err n ≠ .outOfBounds → ∀ i, i < D.len → m'.data (D.base n + i) = res n i))
    (nth : Nat) (h1 : 1 ≤ nth) (as : List Act) (hab : Act.abort ∉ as) (s' : Sys F L)
    (hr : D.Run nth m as s') : D.result T nth s' = D.expected T nth err res := by
  have hd : D.Defined m := fun n hn => by
    obtain ⟨f, m', e, -⟩ := h n hn; exact ⟨f, _, e⟩
  have hpe : ∀ n, n < D.No → ∀ e, D.PointErr m n e ↔ err n = e := by
    intro n hn e
    obtain ⟨f, m', e1, -⟩ := h n hn
    constructor
    · intro h'
      exact Drv.PointErr.unique hs hd hn ⟨f, m', e1⟩ h'
    · rintro rfl
      exact ⟨f, m', e1⟩
  have hflag := Drv.flag_iff hs hd nth h1 as hab s' hr
  have e1 : (∃ n, n < D.No ∧ D.PointErr m n .outOfBounds) ↔ ∃ n, n < D.No ∧ err n = .outOfBounds := by
    constructor
    · rintro ⟨n, hn, h'⟩; exact ⟨n, hn, (hpe n hn _).1 h'⟩
    · rintro ⟨n, hn, h'⟩; exact ⟨n, hn, (hpe n hn _).2 h'⟩
  rw [e1] at hflag
  -- the code the driver returns
  have hcode : (if T.sphere then returnedSphere nth s' else returned nth s') =
      (open Classical in
      if ∃ n, n < D.No ∧ err n = .outOfBounds then (if 2 ≤ nth then .outOfBounds else .none)
      else if T.sphere = false ∧ 2 ≤ nth ∧ ∃ n, n < D.No ∧ err n ≠ .none then codeOf D.level
      else .none) := by
    by_cases h2 : 2 ≤ nth
    · cases hT : T.sphere with
      | true =>
        obtain ⟨j1, j2⟩ := Drv.sphere_join hs hd nth h2 as hab s' hr
        by_cases ho : ∃ n, n < D.No ∧ err n = .outOfBounds
        · rw [if_pos rfl, if_pos ho, if_pos h2, j1 (e1.2 ho)]
        · rw [if_pos rfl, if_neg ho, j2 (fun h => ho (e1.1 h)), if_neg (by simp)]
      | false =>
        obtain ⟨j1, j2⟩ := Drv.join_many hs hd nth h2 as hab s' hr
        rw [if_neg (by simp)]
        by_cases hn : ∃ n, n < D.No ∧ err n ≠ .none
        · obtain ⟨n, hn, he⟩ := hn
          have hr' := j1 ⟨n, hn, err n, he, (hpe n hn _).2 rfl⟩
          rw [hr', oobErr_eq]
          by_cases ho : ∃ n, n < D.No ∧ err n = .outOfBounds
          · rw [if_pos ho, if_pos h2]
            obtain ⟨q, hq, hqe⟩ := ho
            obtain ⟨J, _, _, _, _, _, _, herr, hJe⟩ := Drv.with_job hs hd
            have h5 := (hpe q hq _).1 (hJe q hq)
            rcases herr q hq with h6 | h6
            · rw [← h5, hqe] at h6; simp at h6
            · rw [← oobErr_eq, ← h6, ← h5, hqe]
          · rw [if_neg ho, if_pos ⟨rfl, h2, n, hn, he⟩]
        · have hall : ∀ n, n < D.No → err n = .none := by
            intro n hn'
            by_contra hne
            exact hn ⟨n, hn', hne⟩
          rw [j2 fun n hn' => (hpe n hn' _).2 (hall n hn'), if_neg, if_neg fun h => hn h.2.2]
          rintro ⟨n, hn', he⟩
          rw [hall n hn'] at he; simp at he
    · have : nth = 1 := by omega
      subst this
      have hz : (if T.sphere then returnedSphere 1 s' else returned 1 s') = .none := by
        cases T.sphere <;> rfl
      rw [hz]
      split
      · rfl
      · rw [if_neg (by rintro ⟨-, h, -⟩; omega)]
  unfold Drv.result Drv.expected
  simp only
  rw [hcode]
  by_cases ho : ∃ n, n < D.No ∧ err n = .outOfBounds
  · rw [if_pos ho, if_pos ho, hflag.2 ho]
    by_cases h2 : 2 ≤ nth <;> simp [h2, wrapper]
  · rw [if_neg ho, if_neg ho]
    have hrun : s'.running = true := by
      cases hb : s'.running with
      | true => rfl
      | false => exact absurd (hflag.1 hb) ho
    rw [hrun]
    have hdata : (fun i n => if i < D.len ∧ n < D.No then s'.mem.data (D.base n + i) else lit 0) =
        (fun i n => if i < D.len ∧ n < D.No then res n i else (lit 0 : F)) := by
      funext i n
      by_cases hc : i < D.len ∧ n < D.No
      · rw [if_pos hc, if_pos hc]
        obtain ⟨f, m', g1, g2⟩ := h n hc.2
        rw [Drv.columns hs hd nth h1 as hab (fun q hq hp => ho ⟨q, hq, (hpe q hq _).1 hp⟩) s' hr n hc.2 f
          m' _ g1 i hc.1]
        exact g2 (fun e => ho ⟨n, hc.2, e⟩) i hc.1
      · rw [if_neg hc, if_neg hc]
    rw [hdata]
    by_cases hw : T.sphere = false ∧ 2 ≤ nth ∧ ∃ n, n < D.No ∧ err n ≠ .none
    · rw [if_pos hw]
      obtain ⟨a1, a2, q, hq, hqe⟩ := hw
      obtain ⟨J, _, _, _, _, _, _, herr, hJe⟩ := Drv.with_job hs hd
      have hlev : ∀ q, q < D.No → err q ≠ .none → err q = codeOf D.level := by
        intro q hq hne
        have h5 := (hpe q hq _).1 (hJe q hq)
        rcases herr q hq with h6 | h6
        · rw [← h5] at h6; exact absurd h6 hne
        · rw [h5, h6, oobErr_eq]
      have hiff : (∃ n, n < D.No ∧ err n = .warnOutOfBounds) ↔ codeOf D.level = .warnOutOfBounds := by
        constructor
        · rintro ⟨n, hn, he⟩
          rw [← hlev n hn (by rw [he]; simp), he]
        · intro he
          exact ⟨q, hq, by rw [hlev q hq hqe, he]⟩
      have hno : codeOf D.level ≠ .outOfBounds := by
        intro he
        exact ho ⟨q, hq, by rw [hlev q hq hqe, he]⟩
      simp only [hiff]
      cases hc : codeOf D.level <;> simp [wrapper, hc, a1, a2] at hno ⊢
    · rw [if_neg hw]
      have : ¬ (T.warns = true ∧ T.sphere = false ∧ 2 ≤ nth ∧ ∃ n, n < D.No ∧ err n = .warnOutOfBounds) := by
        rintro ⟨-, b1, b2, n, hn, he⟩
        exact hw ⟨b1, b2, n, hn, by rw [he]; simp⟩
      simp [wrapper, this]

/-- A driver whose columns are computed without undefined behaviour: exactly one thing can happen. -/
theorem Drv.sees_iff {D : Drv F L} {m : Buf F} (T : Tail) (hs : D.Faithful m) (err : Nat → SIRError)
    (res : Nat → Nat → F)
    (h : ∀ n, n < D.No → ∃ fuel m', D.serialAt n fuel m = .ok (m', err n) ∧
      (err n ≠ .outOfBounds → ∀ i, i < D.len → m'.data (D.base n + i) = res n i))
    (t : CntTy) (hw : Nat) (env : Option String) (o : Seen F) :
    D.Sees T t hw env m o ↔ o = ((chooseThreads t hw env D.No).map fun nth =>
      D.expected T nth err res).getD .thrown := by
  have hd : D.Defined m := fun n hn => by
    obtain ⟨f, m', e, -⟩ := h n hn; exact ⟨f, _, e⟩
  cases hc : chooseThreads t hw env D.No with
  | none =>
    constructor
    · intro hsee
      cases hsee with
      | thrown h' => rfl
      | undefined n' as h' hab hu => rw [hc] at h'; simp at h'
      | ran n' as s' h' hab hr => rw [hc] at h'; simp at h'
      | hangs n' σ h' hab fair never => rw [hc] at h'; simp at h'
    · rintro rfl
      exact .thrown hc
  | some nth =>
    have h1 := (C72_count t hw env D.No nth hc).1
    obtain ⟨t1, B, hB⟩ := Drv.terminates hs hd nth
    constructor
    · intro hsee
      cases hsee with
      | thrown h' => rw [hc] at h'; simp at h'
      | undefined n' as h' hab hu =>
        obtain rfl : nth = n' := by rw [hc] at h'; simpa using h'
        obtain ⟨s', hs'⟩ := t1 as
        exact absurd hs' (hu s')
      | ran n' as s' h' hab hr =>
        obtain rfl : nth = n' := by rw [hc] at h'; simpa using h'
        exact Drv.result_eq T hs err res h nth h1 as hab s' hr
      | hangs n' σ h' hab fair never =>
        obtain rfl : nth = n' := by rw [hc] at h'; simpa using h'
        obtain ⟨k, hk⟩ := fair_all σ nth fair B
        obtain ⟨s', hs', hnd⟩ := never k
        exact absurd (fun w hw => hB _ s' hs' w hw (hk w hw)) hnd
    · rintro rfl
      obtain ⟨k, s', hab, hr⟩ := Drv.run_exists hs hd nth
      show D.Sees T t hw env m (D.expected T nth err res)
      rw [← Drv.result_eq T hs err res h nth h1 _ hab s' hr]
      exact .ran nth _ s' hc hab hr

end Generic

/-! ### Specification: the response heard at an observation point -/

/-- What a cell of unit strength at distance `r`, arriving at sample `k`, adds to sample `i`: a unit pulse,
or, in an attenuating medium, the attenuated pulse. -/
noncomputable def pulse (att : Option (AttResp ℝ)) (r : ℝ) (k : ℤ) (i : ℕ) : ℝ :=
  match att with
  | none => if k = (i : ℤ) then 1 else 0
  | some a => a r k i

/-- The contribution of a cell arrives inside the time window of `nt` samples. -/
def Surf.InWindow (S : Surf) (nt : ℕ) (cp delay dt xo yo zo : ℝ) (q j : ℕ) : Prop :=
  0 ≤ S.arrives cp delay dt xo yo zo q j ∧ S.arrives cp delay dt xo yo zo q j < nt

/-- Some contribution arrives outside the time window. -/
def Surf.Misses (S : Surf) (nt : ℕ) (cp delay dt xo yo zo : ℝ) : Prop :=
  ∃ q < S.rows, ∃ j < S.cols q, ¬ S.InWindow nt cp delay dt xo yo zo q j

open Classical in
/-- Sample `i` of the sum of the contributions that arrive inside the window. -/
noncomputable def Surf.heard (S : Surf) (att : Option (AttResp ℝ)) (nt : ℕ)
    (v cp delay dt xo yo zo : ℝ) (i : ℕ) : ℝ :=
  ∑ q ∈ range S.rows, ∑ j ∈ range (S.cols q),
    if S.InWindow nt cp delay dt xo yo zo q j then
      v * S.area / (2 * Real.pi * S.dist xo yo zo q j) / dt * 1000 *
        pulse att (S.dist xo yo zo q j) (S.arrives cp delay dt xo yo zo q j) i
    else 0

/-- Without attenuation this is the Rayleigh sum. -/
theorem C82_lossless (S : Surf) (nt : ℕ) (v cp delay dt xo yo zo : ℝ) (i : ℕ) (hi : i < nt) :
    S.heard none nt v cp delay dt xo yo zo i = S.response v cp delay dt xo yo zo i := by
  unfold Surf.heard Surf.response
  refine Finset.sum_congr rfl fun q _ => Finset.sum_congr rfl fun j _ => ?_
  by_cases h : S.arrives cp delay dt xo yo zo q j = (i : ℤ)
  · have : S.InWindow nt cp delay dt xo yo zo q j := by
      unfold Surf.InWindow; omega
    rw [if_pos h, if_pos this, pulse, if_pos h, mul_one]
  · rw [if_neg h]
    simp only [pulse, if_neg h, mul_zero, ite_self]

theorem foldl_pulse (att : Option (AttResp ℝ)) (i : ℕ) (ps : List (Pt ℝ)) (s : ℝ) :
    ps.foldl (contribution att i) s = s + (ps.map fun p => p.ai * pulse att p.r p.idx i).sum := by
  induction ps generalizing s with
  | nil => simp
  | cons p ps ih =>
    rw [List.foldl_cons, ih, List.map_cons, List.sum_cons]
    cases att with
    | none =>
      simp only [contribution, pulse]
      split
      · rw [r_add]; ring
      · ring
    | some a => simp only [contribution, pulse, r_add, r_mul]; ring

theorem sum_filter_map {α : Type} (P : α → Bool) (f : α → ℝ) (l : List α) :
    ((l.filter P).map f).sum = (l.map fun a => if P a = true then f a else 0).sum := by
  induction l with
  | nil => rfl
  | cons a l ih =>
    by_cases h : P a = true
    · rw [List.filter_cons_of_pos h, List.map_cons, List.sum_cons, ih, List.map_cons, List.sum_cons,
        if_pos h]
    · rw [List.filter_cons_of_neg h, ih, List.map_cons, List.sum_cons, if_neg h, zero_add]

theorem takeWhile_self {α : Type} {P : α → Bool} (l : List α) (h : ∀ a ∈ l, P a = true) :
    l.takeWhile P = l := by
  induction l with
  | nil => rfl
  | cons a l ih =>
    rw [List.takeWhile_cons, if_pos (h a (by simp)), ih fun b hb => h b (by simp [hb])]

/-- The contribution of one cell. -/
noncomputable def Surf.pt (S : Surf) (v cp delay dt xo yo zo : ℝ) (q j : ℕ) : Pt ℝ where
  r := S.dist xo yo zo q j
  ai := v * S.area / (2 * Real.pi * S.dist xo yo zo q j) / dt * 1000
  arg := (S.dist xo yo zo q j * 1000 / cp - (delay - S.foc q j)) / dt

open Classical in
/-- One transducer, one observation point. -/
theorem Kern.hears (k : Kern ℝ) (nt : ℕ) (ty : IdxTy) (level : ErrorLevel) (att : Option (AttResp ℝ))
    (p : Par ℝ) (xo yo zo : ℝ) (base : ℕ) (m : Buf ℝ) (hb : base + nt ≤ m.size) (hg : k.GoodGeo p)
    (hfit : ∀ q < (k.surf p).rows, ∀ j < (k.surf p).cols q,
      ty.fits ((k.surf p).arrives p.cp p.delay p.dt xo yo zo q j) = true)
    (fuel : ℕ) (hf : (k.surf p).fuel ≤ fuel) :
    ∃ m', k.serial nt ty level att p xo yo zo fuel base m = .ok (m',
        if (k.surf p).Misses nt p.cp p.delay p.dt xo yo zo then codeOf level else .none) ∧
      ((if (k.surf p).Misses nt p.cp p.delay p.dt xo yo zo then codeOf level else .none) ≠
          SIRError.outOfBounds →
        ∀ i, i < nt → m'.data (base + i) = (if k.startsFromZero then 0 else m.data (base + i)) +
          (k.surf p).heard att nt (k.wt * p.v) p.cp p.delay p.dt xo yo zo i) := by
  have hps := k.points_surf p xo yo zo hg fuel hf
  set ps := (k.surf p).pts (k.wt * p.v) p.cp p.delay p.dt xo yo zo with hpsd
  have hmem : ∀ pt ∈ ps, ∃ q < (k.surf p).rows, ∃ j < (k.surf p).cols q,
      pt = ((k.surf p).pt (k.wt * p.v) p.cp p.delay p.dt xo yo zo q j) := by
    intro pt hpt
    simp only [hpsd, Surf.pts, List.mem_flatMap, List.mem_map, List.mem_range] at hpt
    obtain ⟨q, hq, j, hj, rfl⟩ := hpt
    exact ⟨q, hq, j, hj, rfl⟩
  have hcast : ∀ pt ∈ ps, pt.castOk ty := by
    intro pt hpt
    obtain ⟨q, hq, j, hj, rfl⟩ := hmem pt hpt
    exact ⟨_, rfl, hfit q hq j hj⟩
  have hall : ps.all (Pt.inRange nt) = true ↔ ¬ (k.surf p).Misses nt p.cp p.delay p.dt xo yo zo := by
    rw [List.all_eq_true]
    constructor
    · rintro h ⟨q, hq, j, hj, hn⟩
      have := h ((k.surf p).pt (k.wt * p.v) p.cp p.delay p.dt xo yo zo q j) (by
        simp only [hpsd, Surf.pts, List.mem_flatMap, List.mem_map, List.mem_range]
        exact ⟨q, hq, j, hj, rfl⟩)
      simp only [Pt.inRange, decide_eq_true_eq] at this
      exact hn this
    · intro h pt hpt
      obtain ⟨q, hq, j, hj, rfl⟩ := hmem pt hpt
      simp only [Pt.inRange, decide_eq_true_eq]
      by_contra hc
      exact h ⟨q, hq, j, hj, hc⟩
  have hi0 : ∀ i, k.initial base m i = if k.startsFromZero then 0 else m.data (base + i) := by
    intro i
    cases k <;> simp [Kern.initial, Kern.clears, Kern.startsFromZero]
  have hsum : ∀ i, ((ps.filter (Pt.inRange nt)).map fun p => p.ai * pulse att p.r p.idx i).sum =
      (k.surf p).heard att nt (k.wt * p.v) p.cp p.delay p.dt xo yo zo i := by
    intro i
    rw [sum_filter_map, hpsd, Surf.pts, flatMap_sum]
    unfold Surf.heard
    refine Finset.sum_congr rfl fun q _ => Finset.sum_congr rfl fun j _ => ?_
    have e : Pt.inRange nt ((k.surf p).pt (k.wt * p.v) p.cp p.delay p.dt xo yo zo q j)
        = true ↔ (k.surf p).InWindow nt p.cp p.delay p.dt xo yo zo q j := by
      simp only [Pt.inRange, decide_eq_true_eq]
      rfl
    set P := (k.surf p).pt (k.wt * p.v) p.cp p.delay p.dt xo yo zo q j with hP
    show (if Pt.inRange nt P = true then P.ai * pulse att P.r P.idx i else 0) = _
    by_cases hc : (k.surf p).InWindow nt p.cp p.delay p.dt xo yo zo q j
    · rw [if_pos hc, if_pos (e.2 hc)]; rfl
    · rw [if_neg hc, if_neg (fun h => hc (e.1 h))]
  by_cases hl : level = .ignore ∨ level = .warn ∨ level = .none
  · obtain ⟨m', h1, h2⟩ := C10_ignore_warn k nt ty level att p xo yo zo fuel base m hb ps hps hcast hl
    refine ⟨m', ?_, fun _ i hi => ?_⟩
    · rw [h1]
      by_cases hM : (k.surf p).Misses nt p.cp p.delay p.dt xo yo zo
      · rw [if_pos hM, if_neg (fun h => hall.1 h hM)]
      · rw [if_neg hM, if_pos (hall.2 hM)]
    · rw [h2 i hi, foldl_pulse, hsum, hi0]
  · have hst : level = .stop ∨ level = .parallelStop := by cases level <;> simp_all
    have hco : codeOf level = .outOfBounds := by rcases hst with h | h <;> rw [h] <;> rfl
    obtain ⟨m', h1, h2⟩ := C10_stop k nt ty level att p xo yo zo fuel base m hb ps hps hcast hst
    refine ⟨m', ?_, fun hne i hi => ?_⟩
    · rw [h1]
      by_cases hM : (k.surf p).Misses nt p.cp p.delay p.dt xo yo zo
      · rw [if_pos hM, if_neg (fun h => hall.1 h hM), hco]
      · rw [if_neg hM, if_pos (hall.2 hM)]
    · by_cases hM : (k.surf p).Misses nt p.cp p.delay p.dt xo yo zo
      · rw [if_pos hM] at hne; exact absurd hco hne
      · have ha := hall.2 hM
        rw [List.all_eq_true] at ha
        rw [h2 i hi, foldl_pulse, ← hsum, hi0, List.filter_eq_self.2 ha, takeWhile_self ps ha]

/-! ### Single transducers -/

/-- Some contribution at observation point `n` arrives outside the time window. -/
def SirCall.MissesAt (D : SirCall ℝ) (n : ℕ) : Prop :=
  (D.k.surf D.p).Misses D.nt D.p.cp (D.delayFor n) D.p.dt (D.obs n).1 (D.obs n).2.1 (D.obs n).2.2

/-- The arrival samples can be converted to the index type. -/
def SirCall.Fits (D : SirCall ℝ) : Prop :=
  ∀ n < D.No, ∀ q < (D.k.surf D.p).rows, ∀ j < (D.k.surf D.p).cols q,
    D.ty.fits ((D.k.surf D.p).arrives D.p.cp (D.delayFor n) D.p.dt (D.obs n).1 (D.obs n).2.1
      (D.obs n).2.2 q j) = true

/-- Sample `i` of the response at observation point `n`. -/
noncomputable def SirCall.heard (D : SirCall ℝ) (n i : ℕ) : ℝ :=
  (D.k.surf D.p).heard D.att D.nt (D.k.wt * D.p.v) D.p.cp (D.delayFor n) D.p.dt
    (D.obs n).1 (D.obs n).2.1 (D.obs n).2.2 i

open Classical in
/-- One observation point of a call on a zeroed matrix. -/
theorem SirCall.serial_heard (D : SirCall ℝ) (hs : D.Sized (zeroBuf (D.No * D.nt)))
    (hg : D.k.GoodGeo D.p) (hfit : D.Fits) (n : ℕ) (hn : n < D.No) :
    ∃ fuel m', D.serialAt n fuel (zeroBuf (D.No * D.nt)) =
        .ok (m', if D.MissesAt n then codeOf D.level else .none) ∧
      ((if D.MissesAt n then codeOf D.level else .none) ≠ SIRError.outOfBounds →
        ∀ i, i < D.nt → m'.data (n * D.nt + i) = D.heard n i) := by
  have hcol : n * D.nt + D.nt ≤ (zeroBuf (D.No * D.nt)).size := by
    show n * D.nt + D.nt ≤ D.No * D.nt
    calc n * D.nt + D.nt = (n + 1) * D.nt := by ring
      _ ≤ D.No * D.nt := Nat.mul_le_mul_right _ hn
  have hsurf : D.k.surf { D.p with delay := D.delayFor n } = D.k.surf D.p := by cases D.k <;> rfl
  have hgood : D.k.GoodGeo { D.p with delay := D.delayFor n } := hg
  obtain ⟨m', g1, g2⟩ := D.k.hears D.nt D.ty D.level D.att { D.p with delay := D.delayFor n }
    (D.obs n).1 (D.obs n).2.1 (D.obs n).2.2 (n * D.nt) _ hcol hgood
    (by rw [hsurf]; exact hfit n hn) (D.k.surf D.p).fuel (by rw [hsurf])
  rw [hsurf] at g1 g2
  refine ⟨(D.k.surf D.p).fuel, m', ?_, fun hne i hi => ?_⟩
  · unfold SirCall.serialAt
    rw [D.inputs_eq _ hs n hn]
    exact g1
  · have := g2 hne i hi
    rw [this]
    simp only [zeroBuf, ite_self, zero_add]
    rfl

open Classical in
/-- The answer to a call when `nth` workers compute `cols` columns `h` of `rows` samples and `misses` says
whether a contribution outside the time window has been noted.  `T` says how the function ends. -/
noncomputable def answerOf (level : ErrorLevel) (rows cols : ℕ) (T : Tail) (nth : ℕ) (misses : Prop)
    (h : ℕ → ℕ → ℝ) : Seen ℝ :=
  if level = .stop ∧ misses then .failed (decide (2 ≤ nth))
  else .matrix
    (decide (level = .warn ∧ misses ∧ 2 ≤ nth ∧ T.sphere = false ∧ T.warns = true))
    (if T.second then
      some (if misses ∧ 2 ≤ nth ∧ T.sphere = false then codeOf level else .none)
     else none)
    rows cols (fun i n => if i < rows ∧ n < cols then h n i else 0)

open Classical in
theorem Drv.expected_answer {L : Type} (D : Drv ℝ L) (T : Tail) (nth : ℕ)
    (hl : D.level = .ignore ∨ D.level = .warn ∨ D.level = .stop) (M : ℕ → Prop) (res : ℕ → ℕ → ℝ) :
    D.expected T nth (fun n => if M n then codeOf D.level else .none) res =
      answerOf D.level D.len D.No T nth (∃ n < D.No, M n) res := by
  have hc : ∀ c : SIRError, c ≠ .none → ((∃ n, n < D.No ∧ (if M n then codeOf D.level else .none) = c) ↔
      (codeOf D.level = c ∧ ∃ n < D.No, M n)) := by
    intro c hne
    constructor
    · rintro ⟨n, hn, h⟩
      by_cases hM : M n
      · rw [if_pos hM] at h
        exact ⟨h, n, hn, hM⟩
      · rw [if_neg hM] at h; exact absurd h.symm hne
    · rintro ⟨h, n, hn, hM⟩
      exact ⟨n, hn, by rw [if_pos hM, h]⟩
  have e3 : (∃ n, n < D.No ∧ (if M n then codeOf D.level else .none) ≠ SIRError.none) ↔
      ∃ n < D.No, M n := by
    constructor
    · rintro ⟨n, hn, h⟩
      by_cases hM : M n
      · exact ⟨n, hn, hM⟩
      · rw [if_neg hM] at h; simp at h
    · rintro ⟨n, hn, hM⟩
      refine ⟨n, hn, ?_⟩
      rw [if_pos hM]
      rcases hl with h' | h' | h' <;> rw [h'] <;> simp [codeOf]
  have e1 : codeOf D.level = .outOfBounds ↔ D.level = .stop := by
    rcases hl with h' | h' | h' <;> rw [h'] <;> simp [codeOf]
  have e2 : codeOf D.level = .warnOutOfBounds ↔ D.level = .warn := by
    rcases hl with h' | h' | h' <;> rw [h'] <;> simp [codeOf]
  unfold Drv.expected answerOf
  simp only [hc _ (show SIRError.outOfBounds ≠ .none by simp),
    hc _ (show SIRError.warnOutOfBounds ≠ .none by simp), e1, e2, e3, r_lit]
  by_cases ho : D.level = .stop ∧ ∃ n < D.No, M n
  · rw [if_pos ho, if_pos ho]
  · rw [if_neg ho, if_neg ho]
    congr 1
    · rw [decide_eq_decide]; tauto
    · by_cases hh : T.sphere = false ∧ 2 ≤ nth ∧ ∃ n < D.No, M n
      · rw [if_pos hh, if_pos (show (∃ n < D.No, M n) ∧ 2 ≤ nth ∧ T.sphere = false by tauto)]
      · rw [if_neg hh, if_neg (show ¬ ((∃ n < D.No, M n) ∧ 2 ≤ nth ∧ T.sphere = false) from
          fun h => hh ⟨h.2.2, h.2.1, h.1⟩)]
    · norm_num

/-- The answer to a call of a single transducer function with `nth` workers. -/
noncomputable def SirCall.answer (D : SirCall ℝ) (T : Tail) (nth : ℕ) : Seen ℝ :=
  answerOf D.level D.nt D.No T nth (∃ n < D.No, D.MissesAt n) D.heard

theorem errArg_levels {a : Option StrArg} {l : ErrorLevel} (h : ErrArg a l) :
    l = .ignore ∨ l = .warn ∨ l = .stop := by
  rcases h with ⟨-, h⟩ | ⟨s, -, h⟩
  · exact .inr (.inr h)
  · cases h <;> simp

/-- C82, single transducers: with documented arguments, a non-empty delay, positive steps (and for the
cylindrical transducer a chord shorter than the diameter), arrival samples that the index type can hold,
and nobody pressing CTRL-C, exactly one thing can happen, whatever the schedule of the workers: an exception
if the environment variable does not start with a number that fits, and otherwise the answer. -/
theorem C82_sir (fe : FrontEnd) (kind : SirKind) (x : SirArgs ℝ) (hx : x.Typed fe) (No nt : ℕ)
    (met : FocusMet) (level : ErrorLevel) (h : SirDoc fe kind x No nt met level)
    (hdel : x.delay.size ≠ 0)
    (D : SirCall ℝ) (hD : D = x.meant exactLib fe kind No nt met level)
    (hg : D.k.GoodGeo D.p) (hfit : D.Fits) (two : Bool) (hw : ℕ) (env : Option String) (o : Seen ℝ) :
    SirSees exactLib fe kind x two hw env o ↔
      o = ((chooseThreads fe.idx.cnt hw env No).map fun nth => D.answer (kind.tail fe two) nth).getD
        .thrown := by
  have hfront := C35_sir_call exactLib fe kind x hx No nt met level h
  rw [← hD] at hfront
  have hDNo : D.No = No := by rw [hD]; rfl
  have hDl : D.level = level := by rw [hD]; rfl
  have hDt : D.ty = fe.idx := by rw [hD]; rfl
  have hs : D.Sized (zeroBuf (D.No * D.nt)) :=
    C36_nonempty_safe exactLib fe kind x hx D hfront
      (by rcases h.delay with h' | h' | h'
          · exact absurd h' hdel
          · exact .inl h'
          · exact .inr (by rw [hDNo]; exact h')) _
  have key := Drv.sees_iff (D := D.drv) (m := zeroBuf (D.No * D.nt)) (kind.tail fe two)
    (SirCall.faithful hs) (open Classical in fun n => if D.MissesAt n then codeOf D.level else .none)
    D.heard (fun n hn => D.serial_heard hs hg hfit n hn) D.ty.cnt hw env o
  have hans : ∀ nth, D.drv.expected (kind.tail fe two) nth
      (open Classical in fun n => if D.MissesAt n then codeOf D.level else .none) D.heard =
      D.answer (kind.tail fe two) nth := fun nth =>
    D.drv.expected_answer (kind.tail fe two) nth (by
      have := errArg_levels h.err
      rw [← hDl] at this
      exact this) D.MissesAt D.heard
  simp only [hans] at key
  rw [show D.drv.No = No from hDNo, hDt] at key
  rw [← key]
  have hz : (⟨D.No * D.nt, fun _ => lit 0⟩ : Buf ℝ) = zeroBuf (D.No * D.nt) := by
    simp only [zeroBuf, r_lit]; norm_num
  constructor
  · intro hsee
    cases hsee with
    | refused b h' => rw [hfront] at h'; simp at h'
    | undefined h' => exact absurd hfront (h' _)
    | called D' h' o hs' =>
      rw [hfront] at h'
      obtain rfl : D = D' := by simpa using h'
      rw [hz, hDt] at hs'
      exact hs'
  · intro hsee
    refine .called D hfront o ?_
    rw [hz, hDt]
    exact hsee

/-! ### Arrays -/

/-- The contributions of element `k` at observation point `n`: some arrive outside the time window. -/
def ArrCall.ElemMisses (D : ArrCall ℝ) (d : Dims ℝ) (n k : ℕ) : Prop :=
  ((D.K.kern 1).surf D.p).Misses D.nt D.p.cp
    (D.delayFor n - (D.A.element d D.p.cp k).foc - (D.A.element d D.p.cp k).steer) D.p.dt
    ((D.obs n).1 - (D.A.element d D.p.cp k).gx) ((D.obs n).2.1 - (D.A.element d D.p.cp k).gy)
    ((D.obs n).2.2 - (D.A.element d D.p.cp k).gz)

/-- Is a contribution outside the window noted at observation point `n`?  Under error level stop that of
any element, otherwise only that of the last element. -/
def ArrCall.MissesAt (D : ArrCall ℝ) (d : Dims ℝ) (n : ℕ) : Prop :=
  (D.level = .stop ∧ ∃ k < D.A.num, D.ElemMisses d n k) ∨
  (D.level ≠ .stop ∧ D.ElemMisses d n (D.A.num - 1))

/-- The arrival samples can be converted to the index type. -/
def ArrCall.Fits (D : ArrCall ℝ) (d : Dims ℝ) : Prop :=
  ∀ n < D.No, ∀ k < D.A.num, ∀ q < ((D.K.kern 1).surf D.p).rows,
    ∀ j < ((D.K.kern 1).surf D.p).cols q,
    D.ty.fits (((D.K.kern 1).surf D.p).arrives D.p.cp
      (D.delayFor n - (D.A.element d D.p.cp k).foc - (D.A.element d D.p.cp k).steer) D.p.dt
      ((D.obs n).1 - (D.A.element d D.p.cp k).gx) ((D.obs n).2.1 - (D.A.element d D.p.cp k).gy)
      ((D.obs n).2.2 - (D.A.element d D.p.cp k).gz) q j) = true

/-- Sample `i` of the response at observation point `n`: the weighted sum of the responses of the
elements. -/
noncomputable def ArrCall.heard (D : ArrCall ℝ) (d : Dims ℝ) (n i : ℕ) : ℝ :=
  ∑ k ∈ range D.A.num, (D.A.element d D.p.cp k).weight *
    ((D.K.kern 1).surf D.p).heard D.att D.nt D.p.v D.p.cp
      (D.delayFor n - (D.A.element d D.p.cp k).foc - (D.A.element d D.p.cp k).steer) D.p.dt
      ((D.obs n).1 - (D.A.element d D.p.cp k).gx) ((D.obs n).2.1 - (D.A.element d D.p.cp k).gy)
      ((D.obs n).2.2 - (D.A.element d D.p.cp k).gz) i

open Classical in
/-- One observation point of an array call on a zeroed matrix. -/
theorem ArrCall.serial_heard (D : ArrCall ℝ) (hs : D.Sized (zeroBuf (D.No * D.nt))) (hA : D.A.Sized)
    (hg : (D.K.kern 1).GoodGeo D.p) (d : Dims ℝ) (hd : maxDimArr D.A.G D.A.num = .ok d)
    (hl : D.level = .ignore ∨ D.level = .warn ∨ D.level = .stop)
    (hfit : D.Fits d) (n : ℕ) (hn : n < D.No) :
    ∃ fuel m', D.serialAt n fuel (zeroBuf (D.No * D.nt)) =
        .ok (m', if D.MissesAt d n then codeOf D.level else .none) ∧
      ((if D.MissesAt d n then codeOf D.level else .none) ≠ SIRError.outOfBounds →
        ∀ i, i < D.nt → m'.data (n * D.nt + i) = D.heard d n i) := by
  have hcol : n * D.nt + D.nt ≤ (zeroBuf (D.No * D.nt)).size := by
    show n * D.nt + D.nt ≤ D.No * D.nt
    calc n * D.nt + D.nt = (n + 1) * D.nt := by ring
      _ ≤ D.No * D.nt := Nat.mul_le_mul_right _ hn
  have hsurf : ∀ w dl, (D.K.kern w).surf { D.p with delay := dl } = (D.K.kern 1).surf D.p := by
    intro w dl; cases D.K <;> rfl
  have hgood : ∀ w dl, (D.K.kern w).GoodGeo { D.p with delay := dl } := by
    intro w dl
    refine ⟨hg.1, hg.2.1, fun w' a b Rc e => ?_⟩
    refine hg.2.2 1 a b Rc ?_
    cases hK : D.K <;> rw [hK] at e <;> simp [ArrKern.kern] at e ⊢
    exact e.2
  have hst : (D.K.kern 1).startsFromZero = False := by cases D.K <;> rfl
  have hwt : (D.K.kern 1).wt = 1 := by cases D.K <;> rfl
  have key : ∀ w k (m : Buf ℝ) base, base + D.nt ≤ m.size → k < D.A.num → ∃ m',
      (D.K.kern w).serial D.nt D.ty D.level D.att
        { D.p with delay := D.delayFor n - (D.A.element d D.p.cp k).foc - (D.A.element d D.p.cp k).steer }
        ((D.obs n).1 - (D.A.element d D.p.cp k).gx) ((D.obs n).2.1 - (D.A.element d D.p.cp k).gy)
        ((D.obs n).2.2 - (D.A.element d D.p.cp k).gz) ((D.K.kern 1).surf D.p).fuel base m =
        .ok (m', if D.ElemMisses d n k then codeOf D.level else .none) ∧
      (w = 1 → (∀ i, i < D.nt → m.data (base + i) = 0) →
        (if D.ElemMisses d n k then codeOf D.level else .none) ≠ SIRError.outOfBounds →
        ∀ i, i < D.nt → m'.data (base + i) =
          ((D.K.kern 1).surf D.p).heard D.att D.nt D.p.v D.p.cp
            (D.delayFor n - (D.A.element d D.p.cp k).foc - (D.A.element d D.p.cp k).steer) D.p.dt
            ((D.obs n).1 - (D.A.element d D.p.cp k).gx) ((D.obs n).2.1 - (D.A.element d D.p.cp k).gy)
            ((D.obs n).2.2 - (D.A.element d D.p.cp k).gz) i) := by
    intro w k m base hb hk
    obtain ⟨m', g1, g2⟩ := (D.K.kern w).hears D.nt D.ty D.level D.att
      { D.p with delay := D.delayFor n - (D.A.element d D.p.cp k).foc - (D.A.element d D.p.cp k).steer }
      ((D.obs n).1 - (D.A.element d D.p.cp k).gx) ((D.obs n).2.1 - (D.A.element d D.p.cp k).gy)
      ((D.obs n).2.2 - (D.A.element d D.p.cp k).gz) base m hb (hgood _ _)
      (by rw [hsurf]; exact hfit n hn k hk) ((D.K.kern 1).surf D.p).fuel (by rw [hsurf])
    rw [hsurf w (D.delayFor n - (D.A.element d D.p.cp k).foc - (D.A.element d D.p.cp k).steer)] at g1 g2
    refine ⟨m', g1, ?_⟩
    rintro rfl hz hne i hi
    rw [g2 hne i hi, hz i hi, ite_self, zero_add, hwt, one_mul]
  choose resp hr1 hr2 using fun k => key 1 k (zeroBuf D.nt) 0 (by simp [zeroBuf])
  have hin := D.inputs_eq _ hs n hn
  have hel : ∀ k, k < D.A.num → D.A.elem d D.p.cp k = .ok (D.A.element d D.p.cp k) := by
    intro k hk
    rw [elem_ok D.A hA d D.p.cp k hk]
    simp only [ArrPar.element, r_lit, r_sqrt, r_add, r_mul, Rat.cast_one]
  obtain ⟨m', code, c1, c2, c3⟩ := C16_array_code D.A hA D.K d hd D.nt D.ty D.level D.att
    { D.p with delay := D.delayFor n } (D.obs n).1 (D.obs n).2.1 (D.obs n).2.2
    ((D.K.kern 1).surf D.p).fuel (n * D.nt) (zeroBuf (D.No * D.nt)) hcol _ hel
    (fun k => if D.ElemMisses d n k then codeOf D.level else .none)
    (fun k hk => by
      obtain ⟨m', g, -⟩ := key (D.A.element d D.p.cp k).weight k _ _ hcol hk
      refine ⟨m', ?_⟩
      simp only [ArrKern.call, r_sub]
      exact g)
  have hnum := hA.num
  have hco : codeOf D.level = .outOfBounds ↔ D.level = .stop := by
    rcases hl with h' | h' | h' <;> rw [h'] <;> simp [codeOf]
  have hcode : code = if D.MissesAt d n then codeOf D.level else .none := by
    by_cases hs : D.level = .stop
    · by_cases hM : ∃ k < D.A.num, D.ElemMisses d n k
      · rw [if_pos (show D.MissesAt d n from Or.inl ⟨hs, hM⟩), hco.2 hs]
        obtain ⟨k, hk, hM⟩ := hM
        exact c2 ⟨k, hk, by rw [if_pos hM, hco.2 hs]⟩
      · have hno : ∀ k, k < D.A.num → ¬ D.ElemMisses d n k := fun k hk h => hM ⟨k, hk, h⟩
        rw [if_neg, c3, if_neg (hno _ (by omega))]
        · intro k hk; rw [if_neg (hno k hk)]; simp
        · rintro (⟨-, h⟩ | ⟨h, -⟩)
          · exact hM h
          · exact h hs
    · rw [c3]
      · by_cases hM : D.ElemMisses d n (D.A.num - 1)
        · rw [if_pos hM, if_pos (show D.MissesAt d n from Or.inr ⟨hs, hM⟩)]
        · rw [if_neg hM, if_neg]
          rintro (⟨h, -⟩ | ⟨-, h⟩)
          · exact hs h
          · exact hM h
      · intro k hk h
        by_cases hM : D.ElemMisses d n k
        · rw [if_pos hM] at h; exact hs (hco.1 h)
        · rw [if_neg hM] at h; simp at h
  refine ⟨((D.K.kern 1).surf D.p).fuel, m', ?_, ?_⟩
  · unfold ArrCall.serialAt
    rw [hin, ← hcode]
    exact c1
  · intro hne i hi
    have hok : ∀ k < D.A.num, (if D.ElemMisses d n k then codeOf D.level else .none) ≠
        SIRError.outOfBounds := by
      intro k hk h
      by_cases hM : D.ElemMisses d n k
      · rw [if_pos hM] at h
        refine hne ?_
        rw [if_pos (show D.MissesAt d n from Or.inl ⟨hco.1 h, k, hk, hM⟩), h]
      · rw [if_neg hM] at h; simp at h
    obtain ⟨m2, s1, s2, -⟩ := C15_superposition D.A hA D.K D.nt D.ty D.level D.att
      { D.p with delay := D.delayFor n } (D.obs n).1 (D.obs n).2.1 (D.obs n).2.2
      ((D.K.kern 1).surf D.p).fuel (n * D.nt) (zeroBuf (D.No * D.nt)) hcol d hd
      (fun k => if h : k < D.A.num then resp k h else zeroBuf D.nt)
      (fun k => if D.ElemMisses d n k then codeOf D.level else .none)
      (fun k hk => by
        have := hr1 k hk
        simp only [dif_pos hk]
        exact this) hok
    rw [s1] at c1
    obtain ⟨rfl, -⟩ : m2 = m' ∧ _ := by simpa using c1
    rw [s2 i hi]
    have : (if D.K.fresh D.att then (0 : ℝ) else (zeroBuf (D.No * D.nt)).data (n * D.nt + i)) = 0 := by
      simp [zeroBuf]
    rw [this, zero_add]
    unfold ArrCall.heard
    refine Finset.sum_congr rfl fun k hk => ?_
    have hk' := Finset.mem_range.1 hk
    rw [dif_pos hk']
    have := hr2 k hk' rfl (fun i _ => rfl) (hok k hk') i hi
    rw [zero_add] at this
    rw [this]

/-- The answer to a call of an array function with `nth` workers. -/
noncomputable def ArrCall.answer (D : ArrCall ℝ) (d : Dims ℝ) (T : Tail) (nth : ℕ) : Seen ℝ :=
  answerOf D.level D.nt D.No T nth (∃ n < D.No, D.MissesAt d n) (D.heard d)

/-- C82, arrays: the same for the array functions, with at least one element. -/
theorem C82_arr (fe : FrontEnd) (kind : ArrKind) (x : ArrArgs ℝ) (hx : x.Typed fe) (No num nt : ℕ)
    (met : FocusMet) (smet : SteerMet) (am : Option ApodMet) (level : ErrorLevel)
    (h : ArrDoc fe kind x No num nt met smet am level) (hdel : x.delay.size ≠ 0) (hnum : 1 ≤ num)
    (D : ArrCall ℝ) (hD : D = x.meant exactLib fe kind No num nt met smet am level)
    (hg : (D.K.kern 1).GoodGeo D.p) (d : Dims ℝ) (hd : maxDimArr D.A.G num = .ok d) (hfit : D.Fits d)
    (two : Bool) (hw : ℕ) (env : Option String) (o : Seen ℝ) :
    ArrSees exactLib fe kind x two hw env o ↔
      o = ((chooseThreads fe.idx.cnt hw env No).map fun nth => D.answer d (arrTail fe two) nth).getD
        .thrown := by
  have hfront := C35_arr_call exactLib fe kind x hx No num nt met smet am level h
  rw [← hD] at hfront
  have hDNo : D.No = No := by rw [hD]; rfl
  have hDnum : D.A.num = num := by rw [hD]; rfl
  have hDl : D.level = level := by rw [hD]; rfl
  have hDt : D.ty = fe.idx := by rw [hD]; rfl
  obtain ⟨hs, hA⟩ : D.Sized (zeroBuf (D.No * D.nt)) ∧ D.A.Sized :=
    C36_arr_nonempty_safe exactLib fe kind x hx D hfront
      (by rcases h.delay with h' | h' | h'
          · exact absurd h' hdel
          · exact .inl h'
          · exact .inr (by rw [hDNo]; exact h')) (by rw [hDnum]; exact hnum) _
  rw [← hDnum] at hd
  have hlev : D.level = .ignore ∨ D.level = .warn ∨ D.level = .stop := by
    have := errArg_levels h.err
    rw [← hDl] at this
    exact this
  have key := Drv.sees_iff (D := D.drv) (m := zeroBuf (D.No * D.nt)) (arrTail fe two)
    (ArrCall.faithful hs) (open Classical in fun n => if D.MissesAt d n then codeOf D.level else .none)
    (D.heard d) (fun n hn => D.serial_heard hs hA hg d hd hlev hfit n hn) D.ty.cnt hw env o
  have hans : ∀ nth, D.drv.expected (arrTail fe two) nth
      (open Classical in fun n => if D.MissesAt d n then codeOf D.level else .none) (D.heard d) =
      D.answer d (arrTail fe two) nth := fun nth =>
    D.drv.expected_answer (arrTail fe two) nth hlev (D.MissesAt d) (D.heard d)
  simp only [hans] at key
  rw [show D.drv.No = No from hDNo, hDt] at key
  rw [← key]
  have hz : (⟨D.No * D.nt, fun _ => lit 0⟩ : Buf ℝ) = zeroBuf (D.No * D.nt) := by
    simp only [zeroBuf, r_lit]; norm_num
  constructor
  · intro hsee
    cases hsee with
    | refused b h' => rw [hfront] at h'; simp at h'
    | undefined h' => exact absurd hfront (h' _)
    | called D' h' o hs' =>
      rw [hfront] at h'
      obtain rfl : D = D' := by simpa using h'
      rw [hz, hDt] at hs'
      exact hs'
  · intro hsee
    refine .called D hfront o ?_
    rw [hz, hDt]
    exact hsee

/-! ### What the documentation promises -/

open Classical in
/-- The documented answer: error level stop ends the call with a message when a contribution arrives
outside the time window; warn prints a warning; under ignore and warn the second output is not zero (the
help text of all functions, e.g. oct/oct_dreamrect.cc 95-105). -/
noncomputable def documentedAnswer (level : ErrorLevel) (rows cols : ℕ) (second : Bool) (misses : Prop)
    (h : ℕ → ℕ → ℝ) : Seen ℝ :=
  if level = .stop ∧ misses then .failed true
  else .matrix (decide (level = .warn ∧ misses))
    (if second then some (if misses then codeOf level else .none) else none)
    rows cols (fun i n => if i < rows ∧ n < cols then h n i else 0)

/-- C82: the call gives the documented answer if there are at least two workers, the function is not
dreamsphere, and not dreamcylind in Julia. -/
theorem C82_documented (fe : FrontEnd) (kind : SirKind) (x : SirArgs ℝ) (hx : x.Typed fe) (No nt : ℕ)
    (met : FocusMet) (level : ErrorLevel) (h : SirDoc fe kind x No nt met level)
    (hdel : x.delay.size ≠ 0)
    (D : SirCall ℝ) (hD : D = x.meant exactLib fe kind No nt met level)
    (hg : D.k.GoodGeo D.p) (hfit : D.Fits) (two : Bool) (hw : ℕ) (env : Option String) (nth : ℕ)
    (hn : chooseThreads fe.idx.cnt hw env No = some nth) (h2 : 2 ≤ nth) (hk : kind ≠ .sphere)
    (hj : ¬ (fe = .julia ∧ kind = .cylind)) (o : Seen ℝ) :
    SirSees exactLib fe kind x two hw env o ↔
      o = documentedAnswer level nt No (two && decide (fe = .matlab ∨ fe = .octave))
        (∃ n < No, D.MissesAt n) D.heard := by
  rw [C82_sir fe kind x hx No nt met level h hdel D hD hg hfit two hw env o, hn]
  simp only [Option.map_some, Option.getD_some]
  have e1 : D.No = No := by rw [hD]; rfl
  have e2 : D.nt = nt := by rw [hD]; rfl
  have e3 : D.level = level := by rw [hD]; rfl
  unfold SirCall.answer answerOf documentedAnswer
  rw [e1, e2, e3]
  have t1 : (kind.tail fe two).sphere = false := by simp [SirKind.tail, hk]
  have t2 : (kind.tail fe two).warns = true := by
    simp only [SirKind.tail, hj, decide_false, Bool.not_false]
  have t3 : (kind.tail fe two).second = (two && decide (fe = .matlab ∨ fe = .octave)) := rfl
  rw [t1, t2, t3]
  generalize hM : (∃ n < No, D.MissesAt n) = M
  by_cases hM' : M <;> simp [hM', h2]

/-- C82: with one worker (one core, one observation point, or the environment variable asks for one) the
error message of level stop is about CTRL-C, the warning of level warn is not printed, and the second output
is zero, whatever the responses. -/
theorem C82_one_worker_violated (fe : FrontEnd) (kind : SirKind) (x : SirArgs ℝ) (hx : x.Typed fe)
    (No nt : ℕ) (met : FocusMet) (level : ErrorLevel) (h : SirDoc fe kind x No nt met level)
    (hdel : x.delay.size ≠ 0)
    (D : SirCall ℝ) (hD : D = x.meant exactLib fe kind No nt met level)
    (hg : D.k.GoodGeo D.p) (hfit : D.Fits) (two : Bool) (hw : ℕ) (env : Option String)
    (hn : chooseThreads fe.idx.cnt hw env No = some 1) (hM : ∃ n < No, D.MissesAt n) (o : Seen ℝ) :
    SirSees exactLib fe kind x two hw env o ↔
      o = if level = .stop then .failed false else
        .matrix false (if two && decide (fe = .matlab ∨ fe = .octave) then some .none else none) nt No
          (fun i n => if i < nt ∧ n < No then D.heard n i else 0) := by
  rw [C82_sir fe kind x hx No nt met level h hdel D hD hg hfit two hw env o, hn]
  simp only [Option.map_some, Option.getD_some]
  have e1 : D.No = No := by rw [hD]; rfl
  have e2 : D.nt = nt := by rw [hD]; rfl
  have e3 : D.level = level := by rw [hD]; rfl
  unfold SirCall.answer answerOf
  rw [e1, e2, e3]
  by_cases hl : level = .stop <;> simp [SirKind.tail, hl, hM]

/-- C82, arrays: with at least two workers the array functions give the documented answer, in all
languages, if under ignore and warn the last element misses whenever another one does. -/
theorem C82_arr_documented (fe : FrontEnd) (kind : ArrKind) (x : ArrArgs ℝ) (hx : x.Typed fe)
    (No num nt : ℕ) (met : FocusMet) (smet : SteerMet) (am : Option ApodMet) (level : ErrorLevel)
    (h : ArrDoc fe kind x No num nt met smet am level) (hdel : x.delay.size ≠ 0) (hnum : 1 ≤ num)
    (D : ArrCall ℝ) (hD : D = x.meant exactLib fe kind No num nt met smet am level)
    (hg : (D.K.kern 1).GoodGeo D.p) (d : Dims ℝ) (hd : maxDimArr D.A.G num = .ok d) (hfit : D.Fits d)
    (two : Bool) (hw : ℕ) (env : Option String) (nth : ℕ)
    (hn : chooseThreads fe.idx.cnt hw env No = some nth) (h2 : 2 ≤ nth)
    (hlast : level = .stop ∨ ((∃ n < No, ∃ k < num, D.ElemMisses d n k) →
      ∃ n < No, D.ElemMisses d n (num - 1))) (o : Seen ℝ) :
    ArrSees exactLib fe kind x two hw env o ↔
      o = documentedAnswer level nt No (two && decide (fe = .matlab ∨ fe = .octave))
        (∃ n < No, ∃ k < num, D.ElemMisses d n k) (D.heard d) := by
  rw [C82_arr fe kind x hx No num nt met smet am level h hdel hnum D hD hg d hd hfit two hw env o, hn]
  simp only [Option.map_some, Option.getD_some]
  have e1 : D.No = No := by rw [hD]; rfl
  have e2 : D.nt = nt := by rw [hD]; rfl
  have e3 : D.level = level := by rw [hD]; rfl
  have e4 : D.A.num = num := by rw [hD]; rfl
  have hMM : (∃ n < No, D.MissesAt d n) = ∃ n < No, ∃ k < num, D.ElemMisses d n k := by
    unfold ArrCall.MissesAt
    rw [e3, e4]
    refine propext ⟨?_, ?_⟩
    · rintro ⟨n, hn, ⟨-, hk⟩ | ⟨-, hk⟩⟩
      · exact ⟨n, hn, hk⟩
      · exact ⟨n, hn, num - 1, by omega, hk⟩
    · intro hE
      by_cases hl : level = .stop
      · obtain ⟨n, hn, hk⟩ := hE
        exact ⟨n, hn, .inl ⟨hl, hk⟩⟩
      · obtain ⟨n, hn, hk⟩ := (hlast.resolve_left hl) hE
        exact ⟨n, hn, .inr ⟨hl, hk⟩⟩
  unfold ArrCall.answer answerOf documentedAnswer
  rw [e1, e2, e3, hMM]
  have t1 : (arrTail fe two).sphere = false := rfl
  have t2 : (arrTail fe two).warns = true := rfl
  have t3 : (arrTail fe two).second = (two && decide (fe = .matlab ∨ fe = .octave)) := rfl
  rw [t1, t2, t3]
  generalize hM : (∃ n < No, ∃ k < num, D.ElemMisses d n k) = M
  by_cases hM' : M <;> simp [hM', h2]

/-- C82, arrays: under ignore and warn, if only other elements than the last one miss the window, there is
no warning and the second output is zero. -/
theorem C82_arr_last_only_violated (fe : FrontEnd) (kind : ArrKind) (x : ArrArgs ℝ) (hx : x.Typed fe)
    (No num nt : ℕ) (met : FocusMet) (smet : SteerMet) (am : Option ApodMet) (level : ErrorLevel)
    (h : ArrDoc fe kind x No num nt met smet am level) (hdel : x.delay.size ≠ 0) (hnum : 1 ≤ num)
    (D : ArrCall ℝ) (hD : D = x.meant exactLib fe kind No num nt met smet am level)
    (hg : (D.K.kern 1).GoodGeo D.p) (d : Dims ℝ) (hd : maxDimArr D.A.G num = .ok d) (hfit : D.Fits d)
    (two : Bool) (hw : ℕ) (env : Option String) (nth : ℕ)
    (hn : chooseThreads fe.idx.cnt hw env No = some nth) (hl : level ≠ .stop)
    (hlast : ∀ n < No, ¬ D.ElemMisses d n (num - 1)) (o : Seen ℝ) :
    ArrSees exactLib fe kind x two hw env o ↔
      o = .matrix false (if two && decide (fe = .matlab ∨ fe = .octave) then some .none else none) nt No
          (fun i n => if i < nt ∧ n < No then D.heard d n i else 0) := by
  rw [C82_arr fe kind x hx No num nt met smet am level h hdel hnum D hD hg d hd hfit two hw env o, hn]
  simp only [Option.map_some, Option.getD_some]
  have e1 : D.No = No := by rw [hD]; rfl
  have e2 : D.nt = nt := by rw [hD]; rfl
  have e3 : D.level = level := by rw [hD]; rfl
  have e4 : D.A.num = num := by rw [hD]; rfl
  have hMM : (∃ n < No, D.MissesAt d n) = False := by
    unfold ArrCall.MissesAt
    rw [e3, e4]
    refine eq_false ?_
    rintro ⟨n, hn, ⟨h', -⟩ | ⟨-, hk⟩⟩
    · exact hl h'
    · exact hlast n hn hk
  unfold ArrCall.answer answerOf
  rw [e1, e2, e3, hMM]
  simp [arrTail]

/-- C82, arrays: with one worker the array functions lose the error code as well. -/
theorem C82_arr_one_worker_violated (fe : FrontEnd) (kind : ArrKind) (x : ArrArgs ℝ) (hx : x.Typed fe)
    (No num nt : ℕ) (met : FocusMet) (smet : SteerMet) (am : Option ApodMet) (level : ErrorLevel)
    (h : ArrDoc fe kind x No num nt met smet am level) (hdel : x.delay.size ≠ 0) (hnum : 1 ≤ num)
    (D : ArrCall ℝ) (hD : D = x.meant exactLib fe kind No num nt met smet am level)
    (hg : (D.K.kern 1).GoodGeo D.p) (d : Dims ℝ) (hd : maxDimArr D.A.G num = .ok d) (hfit : D.Fits d)
    (two : Bool) (hw : ℕ) (env : Option String)
    (hn : chooseThreads fe.idx.cnt hw env No = some 1) (hM : ∃ n < No, D.MissesAt d n) (o : Seen ℝ) :
    ArrSees exactLib fe kind x two hw env o ↔
      o = if level = .stop then .failed false else
        .matrix false (if two && decide (fe = .matlab ∨ fe = .octave) then some .none else none) nt No
          (fun i n => if i < nt ∧ n < No then D.heard d n i else 0) := by
  rw [C82_arr fe kind x hx No num nt met smet am level h hdel hnum D hD hg d hd hfit two hw env o, hn]
  simp only [Option.map_some, Option.getD_some]
  have e1 : D.No = No := by rw [hD]; rfl
  have e2 : D.nt = nt := by rw [hD]; rfl
  have e3 : D.level = level := by rw [hD]; rfl
  unfold ArrCall.answer answerOf
  rw [e1, e2, e3]
  by_cases hl : level = .stop <;> simp [arrTail, hl, hM]

/-- C82: dreamsphere never prints the warning and its second output is always zero; dreamcylind in Julia
never prints the warning. -/
theorem C82_no_warning_violated (fe : FrontEnd) (kind : SirKind) (x : SirArgs ℝ) (hx : x.Typed fe)
    (No nt : ℕ) (met : FocusMet) (h : SirDoc fe kind x No nt met .warn) (hdel : x.delay.size ≠ 0)
    (D : SirCall ℝ) (hD : D = x.meant exactLib fe kind No nt met .warn)
    (hg : D.k.GoodGeo D.p) (hfit : D.Fits) (two : Bool) (hw : ℕ) (env : Option String) (nth : ℕ)
    (hn : chooseThreads fe.idx.cnt hw env No = some nth)
    (hk : kind = .sphere ∨ (fe = .julia ∧ kind = .cylind)) (o : Seen ℝ) :
    SirSees exactLib fe kind x two hw env o ↔
      o = .matrix false (if two && decide (fe = .matlab ∨ fe = .octave) then some .none else none) nt No
        (fun i n => if i < nt ∧ n < No then D.heard n i else 0) := by
  rw [C82_sir fe kind x hx No nt met .warn h hdel D hD hg hfit two hw env o, hn]
  simp only [Option.map_some, Option.getD_some]
  have e1 : D.No = No := by rw [hD]; rfl
  have e2 : D.nt = nt := by rw [hD]; rfl
  have e3 : D.level = .warn := by rw [hD]; rfl
  unfold SirCall.answer answerOf
  rw [e1, e2, e3]
  rcases hk with rfl | ⟨rfl, rfl⟩ <;> simp [SirKind.tail]

/-- C82: the numbers do not depend on the machine: whatever the number of cores and the environment
variable on two machines, if both return a matrix it is the same, and if one fails so does the other (or the
variable is not a number there). -/
theorem C82_machines (fe : FrontEnd) (kind : SirKind) (x : SirArgs ℝ) (hx : x.Typed fe) (No nt : ℕ)
    (met : FocusMet) (level : ErrorLevel) (h : SirDoc fe kind x No nt met level)
    (hdel : x.delay.size ≠ 0)
    (D : SirCall ℝ) (hD : D = x.meant exactLib fe kind No nt met level)
    (hg : D.k.GoodGeo D.p) (hfit : D.Fits) (two : Bool) (hw₁ hw₂ : ℕ) (env₁ env₂ : Option String)
    (o₁ o₂ : Seen ℝ) (h₁ : SirSees exactLib fe kind x two hw₁ env₁ o₁)
    (h₂ : SirSees exactLib fe kind x two hw₂ env₂ o₂) :
    (∀ w s r c m, o₁ = .matrix w s r c m → r = nt ∧ c = No ∧
      ((∃ w' s', o₂ = .matrix w' s' r c m) ∨ o₂ = .thrown)) ∧
    (∀ b, o₁ = .failed b → (∃ b', o₂ = .failed b') ∨ o₂ = .thrown) := by
  rw [C82_sir fe kind x hx No nt met level h hdel D hD hg hfit two] at h₁ h₂
  have e1 : D.No = No := by rw [hD]; rfl
  have e2 : D.nt = nt := by rw [hD]; rfl
  unfold SirCall.answer answerOf at h₁ h₂
  rw [e1, e2] at h₁ h₂
  subst h₁ h₂
  by_cases hc : D.level = .stop ∧ ∃ n < No, D.MissesAt n
  · simp only [if_pos hc]
    cases chooseThreads fe.idx.cnt hw₁ env₁ No <;> cases chooseThreads fe.idx.cnt hw₂ env₂ No <;> simp
  · simp only [if_neg hc]
    cases chooseThreads fe.idx.cnt hw₁ env₁ No <;> cases chooseThreads fe.idx.cnt hw₂ env₂ No
    · exact ⟨(by intro w s r c m he; cases he), (by intro b he; cases he)⟩
    · exact ⟨(by intro w s r c m he; cases he), (by intro b he; cases he)⟩
    · refine ⟨?_, (by intro b he; cases he)⟩
      intro w s r c m he
      injection he with a1 a2 a3 a4 a5
      exact ⟨a3.symm, a4.symm, .inr rfl⟩
    · refine ⟨?_, (by intro b he; cases he)⟩
      intro w s r c m he
      injection he with a1 a2 a3 a4 a5
      subst a3 a4 a5
      exact ⟨rfl, rfl, .inl ⟨_, _, rfl⟩⟩

/-! ### Attenuation -/

open Classical in
/-- C82: in an attenuating medium the spectrum of the response is, at every frequency bin between zero and
half the sampling frequency, the sum over the contributions that arrive in the window of their strength
times the coefficient of the attenuation law. -/
theorem C82_lossy_spectrum (S : Surf) (P : AttPar ℝ) (hdt : P.dt ≠ 0)
    (v cp delay xo yo zo : ℝ) (k : ℕ) (hk : 0 < k) (hk2 : 2 * k < P.len) :
    dft P.len (S.heard (some (attResp exactLib P)) P.len v cp delay P.dt xo yo zo) k =
      ∑ q ∈ range S.rows, ∑ j ∈ range (S.cols q),
        if S.InWindow P.len cp delay P.dt xo yo zo q j then
          ((v * S.area / (2 * Real.pi * S.dist xo yo zo q j) / P.dt * 1000 : ℝ) : ℂ) *
            lawCoef P (S.dist xo yo zo q j) (S.arrives cp delay P.dt xo yo zo q j) k
        else 0 := by
  have hsum : ∀ (f : ℕ → ℕ → ℕ → ℝ), dft P.len (fun i => ∑ q ∈ range S.rows, ∑ j ∈ range (S.cols q),
      f q j i) k = ∑ q ∈ range S.rows, ∑ j ∈ range (S.cols q), dft P.len (f q j) k := by
    intro f
    unfold dft
    push_cast
    simp only [Finset.sum_mul]
    rw [Finset.sum_comm]
    refine Finset.sum_congr rfl fun q _ => ?_
    rw [Finset.sum_comm]
  unfold Surf.heard
  rw [hsum]
  refine Finset.sum_congr rfl fun q _ => Finset.sum_congr rfl fun j _ => ?_
  by_cases hw : S.InWindow P.len cp delay P.dt xo yo zo q j
  · simp only [if_pos hw, pulse]
    have h := attResp_dft P hdt (S.dist xo yo zo q j) (S.arrives cp delay P.dt xo yo zo q j) k hk hk2.le
    rw [if_neg (by omega)] at h
    rw [← h]
    unfold dft
    rw [Finset.mul_sum]
    refine Finset.sum_congr rfl fun i _ => ?_
    push_cast
    ring
  · simp only [if_neg hw]
    unfold dft
    simp

/-! ### Non-vacuity: two transducers heard too late -/

/-- Two observation points 5 mm in front of the origin, responses of 8 samples of a microsecond, all delays
-100 microseconds: every contribution arrives after sample 100. -/
noncomputable def lateArgs (fe : FrontEnd) (kind : SirKind) (lvl : String) : SirArgs ℝ where
  ro := ⟨[2, 3], fun i => if 4 ≤ i then 5 else 0⟩
  geom := ⟨toyShape fe kind.docPars, fun _ => 1⟩
  sPar := ⟨toyShape fe 4, fun i => [1, 1 / 2, 1, 8].getD i 0⟩
  delay := ⟨toyShape fe 1, fun _ => -100⟩
  mPar := ⟨toyShape fe 3, fun i => [1, 1000, 0].getD i 0⟩
  foc := .text "off"
  focal := ⟨toyShape fe 1, fun _ => 1⟩
  err := some (.text lvl)
  gpu := false

theorem lateArgs_typed (fe : FrontEnd) (kind : SirKind) (lvl : String) :
    (lateArgs fe kind lvl).Typed fe := by
  cases fe <;> exact ⟨⟨_, _, rfl⟩, by first | exact ⟨_, rfl⟩ | exact ⟨_, _, rfl⟩,
    by first | exact ⟨_, rfl⟩ | exact ⟨_, _, rfl⟩, by first | exact ⟨_, rfl⟩ | exact ⟨_, _, rfl⟩,
    by first | exact ⟨_, rfl⟩ | exact ⟨_, _, rfl⟩, by first | exact ⟨_, rfl⟩ | exact ⟨_, _, rfl⟩⟩

theorem lateArgs_doc (fe : FrontEnd) (kind : SirKind) (hk : kind.focused = false) (lvl : String)
    (level : ErrorLevel) (hl : ErrName lvl level) :
    SirDoc fe kind (lateArgs fe kind lvl) 2 8 .none level where
  ro := rfl
  geom := by cases fe <;> first | rfl | exact Or.inr rfl
  sPar := by cases fe <;> first | rfl | exact Or.inr rfl
  len := by
    show some (truncR 8) = _
    unfold truncR
    rw [if_pos (by norm_num), show (8 : ℝ) = ((8 : ℤ) : ℝ) by norm_num, Int.floor_intCast]
    rfl
  fits := by cases fe <;> decide
  delay := by
    have : (lateArgs fe kind lvl).delay.size = 1 := by cases fe <;> simp [lateArgs, Arg.size, toyShape]
    omega
  mPar := by cases fe <;> first | rfl | exact Or.inr rfl
  foc := by rw [if_neg (by rw [hk]; decide)]
  err := by
    refine Or.inr ⟨lvl, ?_, hl⟩
    simp [errSeen, lateArgs]

/-- All cells are near: then all contributions arrive between samples 100 and 150. -/
theorem late_arrival (S : Surf) (q j : ℕ) (h : S.dist 0 0 5 q j ≤ 40) (hf : S.foc q j = 0) :
    100 ≤ S.arrives 1000 (-100) 1 0 0 5 q j ∧ S.arrives 1000 (-100) 1 0 0 5 q j ≤ 150 := by
  have h0 : 0 ≤ S.dist 0 0 5 q j := Real.sqrt_nonneg _
  have hn := rintR_near ((S.dist 0 0 5 q j * 1000 / 1000 - (-100 - S.foc q j)) / 1)
  unfold Surf.arrives arrivalSample
  generalize hz : rintR ((S.dist 0 0 5 q j * 1000 / 1000 - (-100 - S.foc q j)) / 1) = z at hn ⊢
  rw [hf, abs_le] at hn
  have h1 : (99 : ℝ) < z := by linarith [hn.2]
  have h2 : (z : ℝ) < 151 := by linarith [hn.1]
  have h1' : (99 : ℤ) < z := by exact_mod_cast h1
  have h2' : z < (151 : ℤ) := by exact_mod_cast h2
  omega

/-- The two transducers. -/
theorem late_geo (fe : FrontEnd) (kind : SirKind) (hk : kind = .sphere ∨ kind = .cylind) (lvl : String)
    (level : ErrorLevel) (D : SirCall ℝ)
    (hD : D = (lateArgs fe kind lvl).meant exactLib fe kind 2 8 .none level) :
    D.k.GoodGeo D.p ∧ D.Fits ∧ ∀ n < 2, D.MissesAt n := by
  have hp : D.p = { dx := 1, dy := 1 / 2, dt := 1, delay := 0, v := 1, cp := 1000 } := by
    rw [hD]; simp [SirArgs.meant, lateArgs]
  have hkern : D.k = .sphere 1 1 ∨ D.k = .cylind 1 1 1 1 := by
    rw [hD]
    rcases hk with rfl | rfl <;> simp [SirArgs.meant, lateArgs]
  have hobs : ∀ n < 2, D.obs n = (0, 0, 5) := by
    intro n hn
    have : n = 0 ∨ n = 1 := by omega
    rw [hD]
    rcases this with rfl | rfl <;> simp [SirCall.obs, SirArgs.meant, lateArgs, Arg.buf]
  have hdel : ∀ n, D.delayFor n = -100 := by
    intro n
    rw [hD]
    simp [SirCall.delayFor, SirArgs.meant, lateArgs, Arg.buf]
  have hnt : D.nt = 8 := by rw [hD]; rfl
  have hNo : D.No = 2 := by rw [hD]; rfl
  have hgood : D.k.GoodGeo D.p := by
    rw [hp]
    refine ⟨by norm_num, by norm_num, ?_⟩
    intro w a b Rc e
    rcases hkern with h | h
    · rw [h] at e; simp at e
    · rw [h] at e
      injection e with e1 e2 e3 e4
      subst e3 e4
      norm_num
  have hfoc : ∀ q j, (D.k.surf D.p).foc q j = 0 := by
    intro q j
    rcases hkern with h | h <;> rw [h] <;> rfl
  have hdist : ∀ q < (D.k.surf D.p).rows, ∀ j < (D.k.surf D.p).cols q,
      (D.k.surf D.p).dist 0 0 5 q j ≤ 40 := by
    intro q hq j hj
    unfold Surf.dist
    rw [show (40 : ℝ) = Real.sqrt (40 ^ 2) from (Real.sqrt_sq (by norm_num)).symm]
    refine Real.sqrt_le_sqrt ?_
    rcases hkern with h | h
    · rw [h, hp] at hq hj ⊢
      have hin := disc_inside (R := 1) (dx := 1) (dy := 1 / 2) (by norm_num) (by norm_num) (by norm_num) q j
        hq hj
      set X := (discSurf 1 1 (1 / 2)).x q j
      set Y := (discSurf 1 1 (1 / 2)).y q j
      show (0 - X) ^ 2 + (0 - Y) ^ 2 + (5 - (if (0 : ℝ) ≤ 1 then 1 - Real.sqrt (1 ^ 2 - X ^ 2 - Y ^ 2)
        else 1 + Real.sqrt (1 ^ 2 - X ^ 2 - Y ^ 2))) ^ 2 ≤ 40 ^ 2
      rw [if_pos (by norm_num)]
      have s0 := Real.sqrt_nonneg (1 ^ 2 - X ^ 2 - Y ^ 2)
      have s1 : Real.sqrt (1 ^ 2 - X ^ 2 - Y ^ 2) ≤ 1 := by
        rw [Real.sqrt_le_one]
        nlinarith [sq_nonneg X, sq_nonneg Y]
      nlinarith
    · rw [h, hp] at hq hj ⊢
      have hj' : |cell 1 1 j| ≤ 1 / 2 := cell_abs_le (by norm_num) (by norm_num) j hj
      set θ := cell (2 * Real.arcsin (1 / 2 / |(1 : ℝ)|)) (Real.arcsin (1 / 2 / |(1 : ℝ)|)) q
      show (0 - cell 1 1 j) ^ 2 + (0 - |1| * Real.sin θ) ^ 2 + (5 - (1 - 1 * Real.cos θ)) ^ 2 ≤ 40 ^ 2
      rw [abs_le] at hj'
      have c1 := Real.cos_le_one θ
      have c2 := Real.neg_one_le_cos θ
      have c3 := Real.sin_le_one θ
      have c4 := Real.neg_one_le_sin θ
      rw [abs_one]
      nlinarith
  have hcells : 0 < (D.k.surf D.p).rows ∧ ∃ q < (D.k.surf D.p).rows, 0 < (D.k.surf D.p).cols q := by
    rcases hkern with h | h
    · rw [h, hp]
      have hr : ((Kern.sphere (1 : ℝ) 1).surf
          { dx := 1, dy := 1 / 2, dt := 1, delay := 0, v := 1, cp := 1000 }).rows = 4 := by
        show ⌊(2 * 1 / (1 / 2) + 1 / 2 : ℝ)⌋₊ = 4
        rw [Nat.floor_eq_iff (by norm_num)]; norm_num
      rw [hr]
      refine ⟨by norm_num, 1, by norm_num, ?_⟩
      show 0 < ⌊(2 * discHalf 1 (1 / 2) 1 / 1 + 1 / 2 : ℝ)⌋₊
      rw [Nat.floor_pos]
      have : (1 / 2 : ℝ) ≤ discHalf 1 (1 / 2) 1 := by
        unfold discHalf cell
        refine Real.le_sqrt_of_sq_le ?_
        norm_num
      linarith
    · rw [h, hp]
      have ha : (0 : ℝ) < Real.arcsin (1 / 2 / |(1 : ℝ)|) := by
        rw [abs_one]; exact Real.arcsin_pos.2 (by norm_num)
      have hr : ((Kern.cylind (1 : ℝ) 1 1 1).surf
          { dx := 1, dy := 1 / 2, dt := 1, delay := 0, v := 1, cp := 1000 }).rows = 2 := by
        show ⌊2 * Real.arcsin (1 / 2 / |(1 : ℝ)|) / Real.arcsin (1 / 2 / |(1 : ℝ)|) + 1 / 2⌋₊ = 2
        rw [mul_div_assoc, div_self ha.ne', Nat.floor_eq_iff (by norm_num)]; norm_num
      rw [hr]
      refine ⟨by norm_num, 0, by norm_num, ?_⟩
      show 0 < ⌊(1 / 1 + 1 / 2 : ℝ)⌋₊
      rw [Nat.floor_pos]; norm_num
  have harr : ∀ n < 2, ∀ q < (D.k.surf D.p).rows, ∀ j < (D.k.surf D.p).cols q,
      100 ≤ (D.k.surf D.p).arrives D.p.cp (D.delayFor n) D.p.dt (D.obs n).1 (D.obs n).2.1 (D.obs n).2.2 q j ∧
      (D.k.surf D.p).arrives D.p.cp (D.delayFor n) D.p.dt (D.obs n).1 (D.obs n).2.1 (D.obs n).2.2 q j
        ≤ 150 := by
    intro n hn q hq j hj
    have hcp : D.p.cp = 1000 := by rw [hp]
    have hdt : D.p.dt = 1 := by rw [hp]
    rw [hobs n hn, hdel, hcp, hdt]
    exact late_arrival _ q j (hdist q hq j hj) (hfoc q j)
  refine ⟨hgood, ?_, ?_⟩
  · intro n hn q hq j hj
    rw [hNo] at hn
    have hty : D.ty = fe.idx := by rw [hD]; rfl
    have h := harr n hn q hq j hj
    rw [hty]
    generalize (D.k.surf D.p).arrives D.p.cp (D.delayFor n) D.p.dt (D.obs n).1 (D.obs n).2.1
      (D.obs n).2.2 q j = z at h
    cases fe <;> simp only [FrontEnd.idx, IdxTy.fits, decide_eq_true_eq] <;> omega
  · intro n hn
    obtain ⟨-, q, hq, hc⟩ := hcells
    refine ⟨q, hq, 0, hc, ?_⟩
    unfold Surf.InWindow
    rw [hnt]
    have := harr n hn q hq 0 hc
    omega

theorem late_threads (fe : FrontEnd) : chooseThreads fe.idx.cnt 2 none 2 = some 2 := by
  cases fe <;> rfl

/-- C82 at work: the same call of dreamcylind on two cores, error level warn.  MATLAB, Octave and Python
print the warning, Julia does not. -/
theorem C82_julia_cylind_violated (fe : FrontEnd) :
    ∃ h, ∀ o, SirSees exactLib fe .cylind (lateArgs fe .cylind "warn") false 2 none o ↔
      o = .matrix (decide (fe ≠ .julia)) none 8 2 h := by
  obtain ⟨g1, g2, g3⟩ := late_geo fe .cylind (.inr rfl) "warn" .warn _ rfl
  have hdoc := lateArgs_doc fe .cylind rfl "warn" .warn .warn
  have hdel : (lateArgs fe .cylind "warn").delay.size ≠ 0 := by
    cases fe <;> simp [lateArgs, Arg.size, toyShape]
  by_cases hj : fe = .julia
  · refine ⟨fun i n => if i < 8 ∧ n < 2 then ((lateArgs fe .cylind "warn").meant exactLib fe .cylind 2 8 .none .warn).heard n i
      else 0, fun o => ?_⟩
    rw [C82_no_warning_violated fe .cylind _ (lateArgs_typed _ _ _) 2 8 .none hdoc hdel _ rfl g1 g2 false 2
      none 2 (late_threads fe) (.inr ⟨hj, rfl⟩) o]
    simp [hj]
  · refine ⟨fun i n => if i < 8 ∧ n < 2 then ((lateArgs fe .cylind "warn").meant exactLib fe .cylind 2 8 .none .warn).heard n i
      else 0, fun o => ?_⟩
    rw [C82_documented fe .cylind _ (lateArgs_typed _ _ _) 2 8 .none .warn hdoc hdel _ rfl g1 g2 false 2
      none 2 (late_threads fe) le_rfl (by decide) (fun h => hj h.1) o]
    unfold documentedAnswer
    have hM : ∃ n < 2, ((lateArgs fe .cylind "warn").meant exactLib fe .cylind 2 8 .none .warn).MissesAt n :=
      ⟨0, by norm_num, g3 0 (by norm_num)⟩
    have hE := eq_true hM
    rw [if_neg (fun h => by cases h.1)]
    simp only [hE, and_self, decide_true, ne_eq, hj, not_false_eq_true]
    simp

/-- C82 at work: dreamsphere under error level warn, two outputs, two cores: no warning, and the second output
is zero, in all languages that have one. -/
theorem C82_sphere_violated (fe : FrontEnd) :
    ∃ h, ∀ o, SirSees exactLib fe .sphere (lateArgs fe .sphere "warn") true 2 none o ↔
      o = .matrix false (if fe = .matlab ∨ fe = .octave then some .none else none) 8 2 h := by
  obtain ⟨g1, g2, g3⟩ := late_geo fe .sphere (.inl rfl) "warn" .warn _ rfl
  have hdoc := lateArgs_doc fe .sphere rfl "warn" .warn .warn
  have hdel : (lateArgs fe .sphere "warn").delay.size ≠ 0 := by
    cases fe <;> simp [lateArgs, Arg.size, toyShape]
  refine ⟨fun i n => if i < 8 ∧ n < 2 then ((lateArgs fe .sphere "warn").meant exactLib fe .sphere 2 8 .none .warn).heard n i
      else 0, fun o => ?_⟩
  rw [C82_no_warning_violated fe .sphere _ (lateArgs_typed _ _ _) 2 8 .none hdoc hdel _ rfl g1 g2 true 2
      none 2 (late_threads fe) (.inl rfl) o]
  simp

/-- C82 at work: error level stop.  On two cores the message is about the time window, on one core about
CTRL-C. -/
theorem C82_message_violated (fe : FrontEnd) (o : Seen ℝ) :
    (SirSees exactLib fe .cylind (lateArgs fe .cylind "stop") false 2 none o ↔ o = .failed true) ∧
    (SirSees exactLib fe .cylind (lateArgs fe .cylind "stop") false 1 none o ↔ o = .failed false) := by
  obtain ⟨g1, g2, g3⟩ := late_geo fe .cylind (.inr rfl) "stop" .stop _ rfl
  have hdoc := lateArgs_doc fe .cylind rfl "stop" .stop .stop
  have hdel : (lateArgs fe .cylind "stop").delay.size ≠ 0 := by
    cases fe <;> simp [lateArgs, Arg.size, toyShape]
  have hM : ∃ n < 2, ((lateArgs fe .cylind "stop").meant exactLib fe .cylind 2 8 .none .stop).MissesAt n :=
    ⟨0, by norm_num, g3 0 (by norm_num)⟩
  constructor
  · rw [C82_sir fe .cylind _ (lateArgs_typed _ _ _) 2 8 .none .stop hdoc hdel _ rfl g1 g2 false 2 none o,
      late_threads fe]
    have : SirCall.answer ((lateArgs fe .cylind "stop").meant exactLib fe .cylind 2 8 .none .stop)
        (SirKind.cylind.tail fe false) 2 = .failed true := by
      unfold SirCall.answer answerOf
      rw [if_pos ⟨rfl, hM⟩]
      simp
    simp [this]
  · rw [C82_one_worker_violated fe .cylind _ (lateArgs_typed _ _ _) 2 8 .none .stop hdoc hdel _ rfl g1 g2
      false 1 none (by cases fe <;> rfl) hM o]
    simp

/-! ### Non-vacuity: an array whose first element is far away -/

/-- Two square elements of 1 mm at x = 100 mm and x = 0, two observation points 5 mm in front of the origin,
responses of 8 samples of a microsecond. -/
noncomputable def farArgs (fe : FrontEnd) (lvl : String) : ArrArgs ℝ where
  ro := ⟨[2, 3], fun i => if 4 ≤ i then 5 else 0⟩
  geom := ⟨toyShape fe 2, fun _ => 1⟩
  grid := ⟨[2, 3], fun i => if i = 0 then 100 else 0⟩
  sPar := ⟨toyShape fe 4, fun i => [1, 1, 1, 8].getD i 0⟩
  delay := ⟨toyShape fe 1, fun _ => 0⟩
  mPar := ⟨toyShape fe 3, fun i => [1, 1000, 0].getD i 0⟩
  foc := .text "off"
  focal := ⟨toyShape fe 1, fun _ => 1⟩
  steer := .text "off"
  steerPar := ⟨toyShape fe 2, fun _ => 0⟩
  apod := .text "off"
  apodVec := ⟨toyShape fe 2, fun _ => 1⟩
  winPar := ⟨[1, 1], fun _ => 1⟩
  err := some (.text lvl)

theorem farArgs_typed (fe : FrontEnd) (lvl : String) : (farArgs fe lvl).Typed fe := by
  cases fe <;> exact ⟨⟨_, _, rfl⟩, by first | exact ⟨_, rfl⟩ | exact ⟨_, _, rfl⟩,
    by first | exact ⟨_, rfl⟩ | exact ⟨_, _, rfl⟩, by first | exact ⟨_, rfl⟩ | exact ⟨_, _, rfl⟩,
    by first | exact ⟨_, rfl⟩ | exact ⟨_, _, rfl⟩, by first | exact ⟨_, rfl⟩ | exact ⟨_, _, rfl⟩,
    by first | exact ⟨_, rfl⟩ | exact ⟨_, _, rfl⟩, by first | exact ⟨_, rfl⟩ | exact ⟨_, _, rfl⟩,
    by first | exact ⟨_, rfl⟩ | exact ⟨_, _, rfl⟩, fun _ => ⟨1, 1, rfl⟩⟩

theorem farArgs_doc (fe : FrontEnd) (lvl : String) (level : ErrorLevel) (hl : ErrName lvl level) :
    ArrDoc fe .rect (farArgs fe lvl) 2 2 8 .none .none none level where
  ro := rfl
  geom := by cases fe <;> first | rfl | exact Or.inr rfl
  grid := rfl
  sPar := by cases fe <;> first | rfl | exact Or.inr rfl
  len := by
    show some (truncR 8) = _
    unfold truncR
    rw [if_pos (by norm_num), show (8 : ℝ) = ((8 : ℤ) : ℝ) by norm_num, Int.floor_intCast]
    rfl
  fits := by cases fe <;> decide
  delay := by
    have : (farArgs fe lvl).delay.size = 1 := by cases fe <;> simp [farArgs, Arg.size, toyShape]
    omega
  mPar := by cases fe <;> first | rfl | exact Or.inr rfl
  foc := ⟨⟨_, rfl, .off⟩, by cases fe <;> simp [farArgs, Arg.size, toyShape]⟩
  steer := ⟨⟨_, rfl, .off⟩, by cases fe <;> first | rfl | exact Or.inr rfl⟩
  apod := ⟨⟨_, rfl, .off⟩, (fun h => by cases h), fun _ => rfl⟩
  err := Or.inr ⟨_, rfl, hl⟩

theorem far_one (n : ℕ) (h : n < ⌊(1 / 1 + 1 / 2 : ℝ)⌋₊) : n = 0 := by
  have : ⌊(1 / 1 + 1 / 2 : ℝ)⌋₊ = 1 := by
    rw [Nat.floor_eq_iff (by norm_num)]; norm_num
  omega

/-- The arrival samples: about 100 for the first element, 5 for the second. -/
theorem far_geo (fe : FrontEnd) (lvl : String) (level : ErrorLevel) (D : ArrCall ℝ)
    (hD : D = (farArgs fe lvl).meant exactLib fe .rect 2 2 8 .none .none none level)
    (d : Dims ℝ) :
    (D.K.kern 1).GoodGeo D.p ∧ D.Fits d ∧ (∀ n < 2, D.ElemMisses d n 0) ∧
      ∀ n < 2, ¬ D.ElemMisses d n 1 := by
  have hp : D.p = { dx := 1, dy := 1, dt := 1, delay := 0, v := 1, cp := 1000 } := by
    rw [hD]; simp [ArrArgs.meant, farArgs]
  have hkern : D.K.kern 1 = .rect 1 1 1 := by
    rw [hD]; simp [ArrArgs.meant, farArgs, ArrKern.kern]
  have hobs : ∀ n < 2, D.obs n = (0, 0, 5) := by
    intro n hn
    have : n = 0 ∨ n = 1 := by omega
    rw [hD]
    rcases this with rfl | rfl <;> simp [ArrCall.obs, ArrArgs.meant, farArgs, Arg.buf]
  have hdel : ∀ n, D.delayFor n = 0 := by
    intro n
    rw [hD]
    simp [ArrCall.delayFor, ArrArgs.meant, farArgs, Arg.buf]
  have hel : ∀ k < 2, (D.A.element d 1000 k).gx = (if k = 0 then 100 else 0) ∧
      (D.A.element d 1000 k).gy = 0 ∧ (D.A.element d 1000 k).gz = 0 ∧
      (D.A.element d 1000 k).foc = 0 ∧ (D.A.element d 1000 k).steer = 0 := by
    intro k hk
    have : k = 0 ∨ k = 1 := by omega
    rw [hD]
    rcases this with rfl | rfl <;>
      simp [ArrPar.element, ArrArgs.meant, farArgs, Arg.buf, focusing, beamsteering]
  have hnt : D.nt = 8 := by rw [hD]; rfl
  have hNo : D.No = 2 := by rw [hD]; rfl
  have hnum : D.A.num = 2 := by rw [hD]; rfl
  have hty : D.ty = fe.idx := by rw [hD]; rfl
  have hsurf : (D.K.kern 1).surf D.p = rectSurf 1 1 1 1 := by rw [hkern, hp]; rfl
  have hx0 : cell (1 : ℝ) 1 0 = 0 := by unfold cell; norm_num
  have harr : ∀ n < 2, ∀ k < 2, ((k = 0 → 99 ≤ (rectSurf 1 1 1 1).arrives D.p.cp
        (D.delayFor n - (D.A.element d D.p.cp k).foc - (D.A.element d D.p.cp k).steer) D.p.dt
        ((D.obs n).1 - (D.A.element d D.p.cp k).gx) ((D.obs n).2.1 - (D.A.element d D.p.cp k).gy)
        ((D.obs n).2.2 - (D.A.element d D.p.cp k).gz) 0 0 ∧ (rectSurf 1 1 1 1).arrives D.p.cp
        (D.delayFor n - (D.A.element d D.p.cp k).foc - (D.A.element d D.p.cp k).steer) D.p.dt
        ((D.obs n).1 - (D.A.element d D.p.cp k).gx) ((D.obs n).2.1 - (D.A.element d D.p.cp k).gy)
        ((D.obs n).2.2 - (D.A.element d D.p.cp k).gz) 0 0 ≤ 150) ∧
      (k = 1 → (rectSurf 1 1 1 1).arrives D.p.cp
        (D.delayFor n - (D.A.element d D.p.cp k).foc - (D.A.element d D.p.cp k).steer) D.p.dt
        ((D.obs n).1 - (D.A.element d D.p.cp k).gx) ((D.obs n).2.1 - (D.A.element d D.p.cp k).gy)
        ((D.obs n).2.2 - (D.A.element d D.p.cp k).gz) 0 0 = 5)) := by
    intro n hn k hk
    have hcp : D.p.cp = 1000 := by rw [hp]
    have hdt : D.p.dt = 1 := by rw [hp]
    obtain ⟨h1, h2, h3, h4, h5⟩ := hel k hk
    rw [hobs n hn, hdel, hcp, hdt, h1, h2, h3, h4, h5]
    constructor
    · rintro rfl
      have hdist : (rectSurf 1 1 1 1).dist (0 - 100) (0 - 0) (5 - 0) 0 0 = Real.sqrt 10025 := by
        show Real.sqrt ((0 - 100 - cell 1 1 0) ^ 2 + (0 - 0 - cell 1 1 0) ^ 2 + (5 - 0 - 0) ^ 2) = _
        rw [hx0]; norm_num
      have b1 : (100 : ℝ) ≤ Real.sqrt 10025 := Real.le_sqrt_of_sq_le (by norm_num)
      have b2 : Real.sqrt 10025 ≤ 101 := by
        rw [Real.sqrt_le_iff]; norm_num
      rw [if_pos rfl]
      show 99 ≤ rintR (((rectSurf 1 1 1 1).dist (0 - 100) (0 - 0) (5 - 0) 0 0 * 1000 / 1000
        - (0 - 0 - 0 - 0)) / 1) ∧ rintR (((rectSurf 1 1 1 1).dist (0 - 100) (0 - 0) (5 - 0) 0 0 * 1000 / 1000
        - (0 - 0 - 0 - 0)) / 1) ≤ 150
      rw [hdist]
      have hn := rintR_near ((Real.sqrt 10025 * 1000 / 1000 - (0 - 0 - 0 - 0)) / 1)
      generalize rintR ((Real.sqrt 10025 * 1000 / 1000 - (0 - 0 - 0 - 0)) / 1) = z at hn ⊢
      rw [abs_le] at hn
      have h1 : (98 : ℝ) < z := by linarith [hn.2]
      have h2 : (z : ℝ) < 151 := by linarith [hn.1]
      have h1' : (98 : ℤ) < z := by exact_mod_cast h1
      have h2' : z < (151 : ℤ) := by exact_mod_cast h2
      omega
    · rintro rfl
      have hdist : (rectSurf 1 1 1 1).dist (0 - 0) (0 - 0) (5 - 0) 0 0 = 5 := by
        show Real.sqrt ((0 - 0 - cell 1 1 0) ^ 2 + (0 - 0 - cell 1 1 0) ^ 2 + (5 - 0 - 0) ^ 2) = _
        rw [hx0]
        rw [show ((0 : ℝ) - 0 - 0) ^ 2 + (0 - 0 - 0) ^ 2 + (5 - 0 - 0) ^ 2 = 5 ^ 2 by norm_num]
        exact Real.sqrt_sq (by norm_num)
      rw [if_neg (by norm_num)]
      show rintR (((rectSurf 1 1 1 1).dist (0 - 0) (0 - 0) (5 - 0) 0 0 * 1000 / 1000
        - (0 - 0 - 0 - 0)) / 1) = 5
      rw [hdist]
      have hn := rintR_near (((5 : ℝ) * 1000 / 1000 - (0 - 0 - 0 - 0)) / 1)
      generalize rintR (((5 : ℝ) * 1000 / 1000 - (0 - 0 - 0 - 0)) / 1) = z at hn ⊢
      rw [abs_le] at hn
      have h1 : (4 : ℝ) < z := by linarith [hn.2]
      have h2 : (z : ℝ) < 6 := by linarith [hn.1]
      have h1' : (4 : ℤ) < z := by exact_mod_cast h1
      have h2' : z < (6 : ℤ) := by exact_mod_cast h2
      omega
  refine ⟨?_, ?_, ?_, ?_⟩
  · rw [hkern, hp]
    refine ⟨by norm_num, by norm_num, fun w a b Rc e => by cases e⟩
  · intro n hn k hk q hq j hj
    rw [hsurf] at hq hj ⊢
    obtain rfl := far_one q hq
    obtain rfl := far_one j hj
    rw [hNo] at hn
    rw [hnum] at hk
    have h := harr n hn k hk
    have hk' : k = 0 ∨ k = 1 := by omega
    rw [hty]
    generalize (rectSurf 1 1 1 1).arrives D.p.cp
        (D.delayFor n - (D.A.element d D.p.cp k).foc - (D.A.element d D.p.cp k).steer) D.p.dt
        ((D.obs n).1 - (D.A.element d D.p.cp k).gx) ((D.obs n).2.1 - (D.A.element d D.p.cp k).gy)
        ((D.obs n).2.2 - (D.A.element d D.p.cp k).gz) 0 0 = z at h
    cases fe <;> simp only [FrontEnd.idx, IdxTy.fits, decide_eq_true_eq] <;> omega
  · intro n hn
    unfold ArrCall.ElemMisses Surf.Misses
    rw [hsurf, hnt]
    have h1 : ⌊(1 / 1 + 1 / 2 : ℝ)⌋₊ = 1 := by
      rw [Nat.floor_eq_iff (by norm_num)]; norm_num
    refine ⟨0, ?_, 0, ?_, ?_⟩
    · show 0 < ⌊(1 / 1 + 1 / 2 : ℝ)⌋₊
      rw [h1]; norm_num
    · show 0 < ⌊(1 / 1 + 1 / 2 : ℝ)⌋₊
      rw [h1]; norm_num
    · unfold Surf.InWindow
      have h := (harr n hn 0 (by norm_num)).1 rfl
      omega
  · intro n hn
    unfold ArrCall.ElemMisses Surf.Misses
    rw [hsurf, hnt]
    rintro ⟨q, hq, j, hj, hw⟩
    obtain rfl := far_one q hq
    obtain rfl := far_one j hj
    apply hw
    unfold Surf.InWindow
    have h := (harr n hn 1 (by norm_num)).2 rfl
    omega

/-- C82 at work, arrays on two cores: under warn no warning although the first element is not heard; under
stop the message about the time window. -/
theorem C82_arr_message_violated (fe : FrontEnd) (two : Bool) :
    (∃ h, ∀ o, ArrSees exactLib fe .rect (farArgs fe "warn") two 2 none o ↔
      o = .matrix false (if two && decide (fe = .matlab ∨ fe = .octave) then some .none else none) 8 2 h) ∧
    ∀ o, ArrSees exactLib fe .rect (farArgs fe "stop") two 2 none o ↔ o = .failed true := by
  obtain ⟨d, hd⟩ : ∃ d, maxDimArr (farArgs fe "warn").grid.buf 2 = .ok d :=
    maxDimArr_ok _ 2 (by norm_num) (le_refl 6)
  constructor
  · obtain ⟨g1, g2, -, g3⟩ := far_geo fe "warn" .warn _ rfl d
    refine ⟨fun i n => if i < 8 ∧ n < 2 then ((farArgs fe "warn").meant exactLib fe .rect 2 2 8 .none .none
      none .warn).heard d n i else 0, fun o => ?_⟩
    rw [C82_arr_last_only_violated fe .rect _ (farArgs_typed fe "warn") 2 2 8 .none .none none .warn
      (farArgs_doc fe "warn" .warn .warn) (by cases fe <;> simp [farArgs, Arg.size, toyShape]) (by norm_num)
      _ rfl g1 d hd g2 two 2 none 2 (late_threads fe) (by decide) g3 o]
  · intro o
    obtain ⟨g1, g2, g4, -⟩ := far_geo fe "stop" .stop _ rfl d
    have hE : ∃ n < 2, ∃ k < 2, ((farArgs fe "stop").meant exactLib fe .rect 2 2 8 .none .none none
        .stop).ElemMisses d n k := ⟨0, by norm_num, 0, by norm_num, g4 0 (by norm_num)⟩
    rw [C82_arr_documented fe .rect _ (farArgs_typed fe "stop") 2 2 8 .none .none none .stop
      (farArgs_doc fe "stop" .stop .stop) (by cases fe <;> simp [farArgs, Arg.size, toyShape]) (by norm_num)
      _ rfl g1 d hd g2 two 2 none 2 (late_threads fe) le_rfl (.inl rfl) o]
    unfold documentedAnswer
    rw [if_pos ⟨rfl, hE⟩]

end Dream
