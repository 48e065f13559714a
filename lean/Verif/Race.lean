import Verif.Drv

/-
Data races of the threaded drivers.
-/

namespace Dream
open Arith

variable {F : Type} [Arith F] {L : Type}

/-- Who accesses shared memory while the workers run: a worker, or the signal handler, which runs on
the main thread (src/dreamrect.cc 40-43, extra_src/mex_conv_p.cc 112-116). -/
inductive Agent
  | worker (w : Nat)
  | handler
  deriving DecidableEq

/-- Shared memory that is written while the workers run: entry `i` of the output matrix and the run
flag.  (The arguments are only read; `D[w].err` belongs to worker `w` until it is joined.) -/
inductive Place
  | out (i : Int)
  | flag
  deriving DecidableEq

/-- The shared access an agent is about to make in state `s`, and whether it is a write: a worker
inside the serial function makes the access of its next step, after an out-of-bounds result it clears
the flag (src/dreamrect.cc 144-150), after each column it reads it (152-157); the handler clears the
flag. -/
def Drv.nextAccess (D : Drv F L) (s : Sys F L) : Agent → Option (Place × Bool)
  | .handler => some (.flag, true)
  | .worker w =>
    match (s.ws w).pc with
    | .run l =>
      match D.step (s.ws w).n l with
      | .rd j _ => some (.out ((D.base (s.ws w).n : Int) + j), false)
      | .wr j _ _ => some (.out ((D.base (s.ws w).n : Int) + j), true)
      | _ => none
    | .signal e => if e = .outOfBounds then some (.flag, true) else none
    | .check => some (.flag, false)
    | _ => none

/-- A data race in state `s`: two different agents are about to access the same place, one of them
writes, and the place is not an atomic object.  `atomic`: the flag is a `std::atomic`;
`signals`: a signal may be delivered. -/
def Drv.DataRace (D : Drv F L) (atomic signals : Bool) (s : Sys F L) : Prop :=
  ∃ a b p wa wb, a ≠ b ∧ (a = .handler ∨ b = .handler → signals = true) ∧
    D.nextAccess s a = some (p, wa) ∧ D.nextAccess s b = some (p, wb) ∧
    (wa = true ∨ wb = true) ∧ (p = .flag → atomic = false)

namespace Drv
variable {D : Drv F L} {m : Buf F}

/-- Where a worker is in its range in every reachable state, and what it can still do. -/
theorem reach_inv (hs : D.Faithful m) (hd : D.Defined m) (nth : Nat) (as : List Act) (s : Sys F L)
    (he : exec D.task as (initSys D.No nth m) = .ok s) :
    ∃ res : Nat → (Nat → F) × SIRError, (∀ n, n < D.No → D.PointErr m n (res n).2) ∧
      (∀ n, n < D.No → (res n).2 = .none ∨ (res n).2 = oobErr D.level) ∧
      s.mem.size = m.size ∧ (∀ w, nth ≤ w → (s.ws w).pc = .done) ∧
      ∀ w, w < nth → rangeStart D.No nth w ≤ (s.ws w).n ∧ (s.ws w).stop = rangeStop D.No nth w ∧
        (∀ l, (s.ws w).pc = .run l → (s.ws w).n < rangeStop D.No nth w ∧
          ∃ k, Evals (effCol D.step D.len) (s.ws w).n k l
            (s.mem.getCol (D.base (s.ws w).n) D.len) (res (s.ws w).n)) ∧
        (∀ e, (s.ws w).pc = .signal e → (s.ws w).n < rangeStop D.No nth w ∧ e = (res (s.ws w).n).2) := by
  obtain ⟨J, hmic, rfl', hNo, hmem, hlen, hbase, _, herr, hpe⟩ := with_job_mic hs hd
  obtain ⟨s', rem, h1, inv, _⟩ := J.reach (nth := nth) as
  rw [rfl', hNo, hmem, he] at h1
  simp only [Outcome.ok.injEq] at h1
  subst h1
  refine ⟨J.res, hpe, herr, by rw [inv.size, hmem], inv.ghosts, fun w hw => ?_⟩
  have W := inv.workers w hw
  rw [hNo] at W
  have P := W.pos
  unfold Job.Pos at P
  refine ⟨W.lo_le, W.stop, fun l hl => ?_, fun e he => ?_⟩
  · rw [hl] at P
    obtain ⟨p1, k, _, p2⟩ := P
    rw [hmic, hlen, hbase] at p2
    exact ⟨p1, k, p2⟩
  · rw [he] at P
    exact ⟨P.1, P.2.1⟩

omit [Arith F] in
/-- The next step of a column that can be finished stays inside the column. -/
theorem evals_inside {step : Nat → L → Eff F L} {len n k : Nat} {l : L} {c : Nat → F} {r}
    (h : Evals (effCol step len) n k l c r) :
    (∀ j g, step n l = .rd j g → 0 ≤ j ∧ j < (len : Int)) ∧
    ∀ j x l', step n l = .wr j x l' → 0 ≤ j ∧ j < (len : Int) := by
  have key : ∃ v, effCol step len n l c = .ok v := by
    cases h with
    | last h => exact ⟨_, h⟩
    | more h _ => exact ⟨_, h⟩
  obtain ⟨v, hv⟩ := key
  unfold effCol at hv
  constructor
  · intro j g hj
    rw [hj] at hv
    simp only [Eff.onCol] at hv
    split at hv
    · assumption
    · simp at hv
  · intro j x l' hj
    rw [hj] at hv
    simp only [Eff.onCol] at hv
    split at hv
    · assumption
    · simp at hv

/-- In every reachable state of every schedule a worker that is about to access the matrix does so
inside a column of its own range. -/
theorem own_column (hs : D.Faithful m) (hd : D.Defined m) (nth : Nat) (as : List Act) (s : Sys F L)
    (he : exec D.task as (initSys D.No nth m) = .ok s) (w : Nat) (i : Int) (b : Bool)
    (h : D.nextAccess s (.worker w) = some (.out i, b)) :
    w < nth ∧ ∃ n, n < D.No ∧ rangeStart D.No nth w ≤ n ∧ n < rangeStop D.No nth w ∧
      (D.base n : Int) ≤ i ∧ i < (D.base n : Int) + D.len := by
  obtain ⟨res, _, _, _, hgh, hw⟩ := reach_inv hs hd nth as s he
  by_cases hwn : w < nth
  · obtain ⟨h1, h2, h3, _⟩ := hw w hwn
    refine ⟨hwn, (s.ws w).n, ?_⟩
    have hle : rangeStop D.No nth w ≤ D.No := by
      rw [rangeStop_eq]; exact rangeStart_le D.No nth (w + 1) (by omega) (by omega)
    simp only [nextAccess] at h
    cases hpc : (s.ws w).pc with
    | run l =>
      obtain ⟨g1, k, g2⟩ := h3 l hpc
      obtain ⟨i1, i2⟩ := evals_inside g2
      rw [hpc] at h
      simp only at h
      cases hst : D.step (s.ws w).n l with
      | rd j g =>
        rw [hst] at h
        simp only [Option.some.injEq, Prod.mk.injEq, Place.out.injEq] at h
        have := i1 j g hst
        exact ⟨by omega, h1, g1, by omega, by omega⟩
      | wr j x l' =>
        rw [hst] at h
        simp only [Option.some.injEq, Prod.mk.injEq, Place.out.injEq] at h
        have := i2 j x l' hst
        exact ⟨by omega, h1, g1, by omega, by omega⟩
      | tau l' => rw [hst] at h; simp at h
      | ret e => rw [hst] at h; simp at h
      | bad e => rw [hst] at h; simp at h
    | fetch => rw [hpc] at h; simp at h
    | signal e => rw [hpc] at h; simp only at h; split at h <;> simp at h
    | check => rw [hpc] at h; simp at h
    | done => rw [hpc] at h; simp at h
  · simp only [nextAccess] at h
    rw [hgh w (by omega)] at h
    simp at h

/-- Two workers never access the same entry of the matrix. -/
theorem no_shared_entry (hs : D.Faithful m) (hd : D.Defined m) (nth : Nat) (as : List Act)
    (s : Sys F L) (he : exec D.task as (initSys D.No nth m) = .ok s) (a b : Agent) (i : Int)
    (wa wb : Bool) (hab : a ≠ b) (ha : D.nextAccess s a = some (.out i, wa))
    (hb : D.nextAccess s b = some (.out i, wb)) : False := by
  cases a with
  | handler => simp [nextAccess] at ha
  | worker u =>
    cases b with
    | handler => simp [nextAccess] at hb
    | worker v =>
      obtain ⟨hu, n, n1, n2, n3, n4, n5⟩ := own_column hs hd nth as s he u i wa ha
      obtain ⟨hv, k, k1, k2, k3, k4, k5⟩ := own_column hs hd nth as s he v i wb hb
      have huv : u ≠ v := fun e => hab (by rw [e])
      have hnk : n ≠ k := by
        rintro rfl
        rw [rangeStop_eq] at n3 k3
        rcases Nat.lt_or_gt_of_ne huv with h | h
        · have := rangeStart_mono D.No nth (show u + 1 ≤ v by omega); omega
        · have := rangeStart_mono D.No nth (show v + 1 ≤ u by omega); omega
      have := hs.disj n k n1 k1 hnk
      omega

/-- With an atomic flag no reachable state of any schedule has a data race. -/
theorem race_free (hs : D.Faithful m) (hd : D.Defined m) (nth : Nat) (as : List Act)
    (s : Sys F L) (he : exec D.task as (initSys D.No nth m) = .ok s) (signals : Bool) :
    ¬ D.DataRace true signals s := by
  rintro ⟨a, b, p, wa, wb, hab, _, ha, hb, _, hp⟩
  cases p with
  | flag => simp at hp
  | out i => exact no_shared_entry hs hd nth as s he a b i wa wb hab ha hb

/-- With a plain flag there is no race as long as no signal is delivered, if no column ends with the
code "out of bounds". -/
theorem race_free_plain (hs : D.Faithful m) (hd : D.Defined m) (hl : oobErr D.level ≠ .outOfBounds)
    (nth : Nat) (as : List Act) (s : Sys F L)
    (he : exec D.task as (initSys D.No nth m) = .ok s) : ¬ D.DataRace false false s := by
  rintro ⟨a, b, p, wa, wb, hab, hsig, ha, hb, hwr, _⟩
  cases p with
  | out i => exact no_shared_entry hs hd nth as s he a b i wa wb hab ha hb
  | flag =>
    obtain ⟨res, _, hcode, _, hgh, hw⟩ := reach_inv hs hd nth as s he
    have hno : ∀ v, D.nextAccess s (.worker v) = some (.flag, true) → False := by
      intro v hv
      simp only [nextAccess] at hv
      by_cases hvn : v < nth
      · obtain ⟨_, _, _, h4⟩ := hw v hvn
        cases hpc : (s.ws v).pc with
        | signal e =>
          obtain ⟨g1, g2⟩ := h4 e hpc
          have hle : rangeStop D.No nth v ≤ D.No := by
            rw [rangeStop_eq]; exact rangeStart_le D.No nth (v + 1) (by omega) (by omega)
          rw [hpc] at hv
          simp only at hv
          split at hv
          · next h5 =>
            have := hcode (s.ws v).n (by omega)
            rw [← g2, h5] at this
            rcases this with h6 | h6
            · simp at h6
            · exact hl h6.symm
          · simp at hv
        | run l =>
          rw [hpc] at hv
          simp only at hv
          cases hst : D.step (s.ws v).n l <;> rw [hst] at hv <;> simp at hv
        | fetch => rw [hpc] at hv; simp at hv
        | check => rw [hpc] at hv; simp at hv
        | done => rw [hpc] at hv; simp at hv
      · rw [hgh v (by omega)] at hv; simp at hv
    cases a with
    | handler => simp at hsig
    | worker u =>
      cases b with
      | handler => simp at hsig
      | worker v =>
        rcases hwr with rfl | rfl
        · exact hno u ha
        · exact hno v hb

/-- A worker inside a column, scheduled alone, finishes the column. -/
theorem run_alone (hin : ∀ n, n < D.No → D.base n + D.len ≤ m.size) (w n : Nat) (hn : n < D.No)
    (k : Nat) : ∀ (l : L) (s : Sys F L) (r), s.mem.size = m.size → (s.ws w).pc = .run l →
    (s.ws w).n = n → Evals (effCol D.step D.len) n k l (s.mem.getCol (D.base n) D.len) r →
    ∃ s', exec D.task (List.replicate k (.step w)) s = .ok s' ∧ (s'.ws w).pc = .signal r.2 := by
  have loc := effTask_local D.begin D.step D.base D.len
  induction k with
  | zero => intro l s r _ _ _ h; cases h
  | succ k ih =>
    intro l s r hsz hpc hn' h
    cases h with
    | last h1 =>
      rename_i c' e
      have hm := loc.lift n l s.mem c' _ (by rw [hsz]; exact hin n hn) h1
      simp only [List.replicate, exec, stepSys, stepWorker, hpc, hn']
      rw [show D.task.micro n l s.mem = _ from hm]
      refine ⟨_, rfl, ?_⟩
      simp [Sys.setW]
    | more h1 h2 =>
      rename_i c' l'
      have hm := loc.lift n l s.mem c' _ (by rw [hsz]; exact hin n hn) h1
      have hp := loc.pad n l _ _ _ h1 (fun i hi => Job.getCol_pad s.mem (D.base n) D.len i hi)
      simp only [List.replicate, exec, stepSys, stepWorker, hpc, hn']
      rw [show D.task.micro n l s.mem = _ from hm]
      simp only [Outcome.bind]
      refine ih l' _ r ?_ ?_ ?_ ?_
      · show s.mem.size = _; exact hsz
      · simp [Sys.setW]
      · simp [Sys.setW, hn']
      · have e : ({ s with mem := s.mem.setCol (D.base n) D.len c' }.setW w
            { s.ws w with pc := .run l' }).mem = s.mem.setCol (D.base n) D.len c' := rfl
        have : (s.mem.setCol (D.base n) D.len c').getCol (D.base n) D.len = c' :=
          Job.getCol_set _ _ _ _ hp
        show Evals _ n k l' ((s.mem.setCol (D.base n) D.len c').getCol (D.base n) D.len) r
        rw [this]
        exact h2

/-- With a plain flag every call with at least one column has a data race if a signal arrives: some
schedule leads to a state in which a worker reads the flag while the handler writes it. -/
theorem flag_race (hs : D.Faithful m) (hd : D.Defined m) (nth : Nat) (h1 : 1 ≤ nth)
    (hNo : 1 ≤ D.No) : ∃ as s, Act.abort ∉ as ∧ exec D.task as (initSys D.No nth m) = .ok s ∧
      D.DataRace false true s := by
  obtain ⟨w, hw, hlo, hhi⟩ := owner_exists D.No nth 0 h1 (by omega)
  obtain ⟨fuel, r, hr⟩ := hd 0 (by omega)
  obtain ⟨l, c, g1, _, ⟨k, g3⟩, _⟩ := hs.prog 0 (by omega) fuel r hr
  have hst : rangeStart D.No nth w = 0 := by omega
  let s0 : Sys F L := initSys D.No nth m
  let s1 : Sys F L := s0.setW w { s0.ws w with pc := .run l }
  have hws : s0.ws w = { n := 0, stop := rangeStop D.No nth w, pc := .fetch, err := .none } := by
    show (if w < nth then _ else _) = _
    rw [if_pos hw, hst]
  have hx1 : s1.ws w = { n := 0, stop := rangeStop D.No nth w, pc := .run l, err := .none } := by
    simp only [s1, Sys.setW, if_pos, hws]
  have e1 : stepSys D.task (.step w) s0 = .ok s1 := by
    simp only [stepSys, stepWorker, hws]
    rw [if_pos hhi, show D.task.begin 0 = .ok l from g1]
    simp only [Outcome.bind, s1, hws]
  obtain ⟨s2, e2, p2⟩ := run_alone (m := m) hs.inside w 0 (by omega) k l s1 _ rfl
    (by rw [hx1]) (by rw [hx1]) g3
  refine ⟨.step w :: (List.replicate k (.step w) ++ [.step w]),
    { s2 with running := if r.2 = SIRError.outOfBounds then false else s2.running }.setW w
      { s2.ws w with pc := .check }, ?_, ?_, ?_⟩
  · simp
  · show (stepSys D.task (.step w) s0).bind _ = _
    rw [e1]
    show exec D.task (List.replicate k (.step w) ++ [.step w]) s1 = _
    rw [exec_append, e2]
    show exec D.task [.step w] s2 = _
    simp only [exec, stepSys, stepWorker, p2, Outcome.bind]
  · refine ⟨.worker w, .handler, .flag, false, true, by simp, by simp, ?_, rfl, by simp, by simp⟩
    simp [nextAccess, Sys.setW]

end Drv

end Dream
