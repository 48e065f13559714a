import Verif.ProgBad

/-
Programs without endless loops: a driver that runs such programs comes to an end under every schedule that
gives every worker a turn again and again, or meets undefined behaviour.
-/

namespace Dream

variable {F : Type}

/-- Whatever the column contains, the program meets no endless loop. -/
def Prog.NoSpin {α : Type} : Prog F α → Prop
  | .ret _ => True
  | .bad _ => True
  | .spin => False
  | .rd _ k => ∀ v, (k v).NoSpin
  | .wr _ _ p => p.NoSpin

theorem Prog.NoSpin.bind {α β : Type} {p : Prog F α} {f : α → Prog F β} (h : p.NoSpin)
    (hf : ∀ a, (f a).NoSpin) : (p.bind f).NoSpin := by
  induction p with
  | ret a => exact hf a
  | bad e => trivial
  | spin => exact h.elim
  | rd j k ih => exact fun v => ih v (h v)
  | wr j x p ih => exact ih h

theorem Prog.NoSpin.lift {α : Type} {o : Outcome α} (h : o ≠ .fuel) :
    (Prog.lift o : Prog F α).NoSpin := by
  cases o with
  | ok a => trivial
  | ub e => trivial
  | fuel => exact absurd rfl h

theorem Prog.NoSpin.forN {σ : Type} {f : Nat → σ → Prog F σ} (h : ∀ i s, (f i s).NoSpin) (k : Nat) :
    ∀ (start : Nat) (s : σ), (Prog.forN f k start s).NoSpin := by
  induction k with
  | zero => intro start s; trivial
  | succ k ih => intro start s; exact (h start s).bind fun s' => ih (start + 1) s'

theorem Outcome.bind_noFuel {α β : Type} {o : Outcome α} {f : α → Outcome β} (h : o ≠ .fuel)
    (hf : ∀ a, f a ≠ .fuel) : o.bind f ≠ .fuel := by
  cases o with
  | ok a => exact hf a
  | ub e => intro h; cases h
  | fuel => exact absurd rfl h

theorem forO_noFuel {σ : Type} {f : Nat → σ → Outcome σ} (h : ∀ i s, f i s ≠ .fuel) (k : Nat) :
    ∀ (start : Nat) (s : σ), forO f k start s ≠ .fuel := by
  induction k with
  | zero => intro start s h'; cases h'
  | succ k ih => intro start s; exact Outcome.bind_noFuel (h start s) fun s' => ih (start + 1) s'

theorem Buf.read_noFuel (b : Buf F) (j : Int) : b.read j ≠ .fuel := by
  unfold Buf.read; split <;> (intro h; cases h)

theorem Buf.write_noFuel (b : Buf F) (j : Int) (x : F) : b.write j x ≠ .fuel := by
  unfold Buf.write; split <;> (intro h; cases h)

variable [Arith F]

/-- Steps of one schedule as a sequence of states. -/
structure Trace {L : Type} (t : Task F L) (σ : Nat → Act) (S : Nat → Sys F L) : Prop where
  step : ∀ k, stepSys t (σ k) (S k) = .ok (S (k + 1))

omit [Arith F] in
theorem exec_range_succ {L : Type} (t : Task F L) (σ : Nat → Act) (s : Sys F L) (k : Nat) :
    exec t ((List.range (k + 1)).map σ) s =
      (exec t ((List.range k).map σ) s).bind (stepSys t (σ k)) := by
  rw [List.range_succ, List.map_append, exec_append]
  congr 1
  funext s'
  show (stepSys t (σ k) s').bind (exec t []) = _
  cases stepSys t (σ k) s' <;> rfl

/-- A schedule all of whose prefixes are defined gives a sequence of states. -/
theorem trace_of {L : Type} (t : Task F L) (σ : Nat → Act) (s : Sys F L)
    (h : ∀ k, ∃ s', exec t ((List.range k).map σ) s = .ok s') :
    ∃ S, Trace t σ S ∧ S 0 = s ∧ ∀ k, exec t ((List.range k).map σ) s = .ok (S k) := by
  obtain ⟨S, hS⟩ : ∃ S : Nat → Sys F L, ∀ k, exec t ((List.range k).map σ) s = .ok (S k) :=
    ⟨fun k => (h k).choose, fun k => (h k).choose_spec⟩
  refine ⟨S, ⟨fun k => ?_⟩, ?_, hS⟩
  · have e2 := hS (k + 1)
    rw [exec_range_succ, hS k] at e2
    exact e2
  · have e := hS 0
    simp only [List.range_zero, List.map_nil, exec, Outcome.ok.injEq] at e
    exact e.symm

omit [Arith F] in
/-- Only a step of worker `w` changes worker `w`. -/
theorem stepSys_other {L : Type} {t : Task F L} {a : Act} {s s' : Sys F L} {w : Nat} (ha : a ≠ .step w)
    (h : stepSys t a s = .ok s') : s'.ws w = s.ws w := by
  cases a with
  | abort => simp only [stepSys, Outcome.ok.injEq] at h; subst h; rfl
  | step v =>
    have hv : w ≠ v := fun e => ha (by rw [e])
    simp only [stepSys] at h
    unfold stepWorker at h
    simp only at h
    cases hpc : (s.ws v).pc with
    | done => simp only [hpc, Outcome.ok.injEq] at h; subst h; rfl
    | fetch =>
      simp only [hpc] at h
      split at h
      · cases hb : t.begin (s.ws v).n with
        | ok l =>
          rw [hb] at h
          simp only [Outcome.bind, Outcome.ok.injEq] at h
          subst h; simp [Sys.setW, hv]
        | ub e => rw [hb] at h; simp [Outcome.bind] at h
        | fuel => rw [hb] at h; simp [Outcome.bind] at h
      · simp only [Outcome.ok.injEq] at h; subst h; simp [Sys.setW, hv]
    | run l =>
      simp only [hpc] at h
      cases hb : t.micro (s.ws v).n l s.mem with
      | ok r =>
        rw [hb] at h
        obtain ⟨m, r⟩ := r
        cases r with
        | inl l' => simp only [Outcome.bind, Outcome.ok.injEq] at h; subst h; simp [Sys.setW, hv]
        | inr e => simp only [Outcome.bind, Outcome.ok.injEq] at h; subst h; simp [Sys.setW, hv]
      | ub e => rw [hb] at h; simp [Outcome.bind] at h
      | fuel => rw [hb] at h; simp [Outcome.bind] at h
    | signal e => simp only [hpc, Outcome.ok.injEq] at h; subst h; simp [Sys.setW, hv]
    | check =>
      simp only [hpc] at h
      split at h <;> (simp only [Outcome.ok.injEq] at h; subst h; simp [Sys.setW, hv])

/-- When worker `w` has its next turn, it is where it was. -/
theorem Trace.next {L : Type} {t : Task F L} {σ : Nat → Act} {S : Nat → Sys F L} (T : Trace t σ S) (w : Nat)
    (fair : ∀ k, ∃ j, k ≤ j ∧ σ j = .step w) (k : Nat) :
    ∃ j, k ≤ j ∧ (S j).ws w = (S k).ws w ∧ stepWorker t w (S j) = .ok (S (j + 1)) := by
  obtain ⟨j0, hj0, hσ0⟩ := fair k
  have key : ∀ d k, (∃ j, k ≤ j ∧ j ≤ k + d ∧ σ j = .step w) →
      ∃ j, k ≤ j ∧ (S j).ws w = (S k).ws w ∧ stepWorker t w (S j) = .ok (S (j + 1)) := by
    intro d
    induction d with
    | zero =>
      rintro k ⟨j, h1, h2, h3⟩
      obtain rfl : j = k := by omega
      refine ⟨j, Nat.le_refl _, rfl, ?_⟩
      have := T.step j
      rw [h3] at this
      exact this
    | succ d ih =>
      rintro k ⟨j, h1, h2, h3⟩
      by_cases hk : σ k = .step w
      · refine ⟨k, Nat.le_refl _, rfl, ?_⟩
        have := T.step k
        rw [hk] at this
        exact this
      · have hjk : j ≠ k := fun e => hk (e ▸ h3)
        obtain ⟨i, i1, i2, i3⟩ := ih (k + 1) ⟨j, by omega, by omega, h3⟩
        exact ⟨i, by omega, i2.trans (stepSys_other hk (T.step k)), i3⟩
  exact key (j0 - k) k ⟨j0, hj0, by omega, hσ0⟩

theorem Trace.done_stays {L : Type} {t : Task F L} {σ : Nat → Act} {S : Nat → Sys F L} (T : Trace t σ S)
    (w k : Nat) (h : (S k).isDone w) (d : Nat) : (S (k + d)).isDone w := by
  induction d with
  | zero => exact h
  | succ d ih =>
    have hs := T.step (k + d)
    by_cases hw : σ (k + d) = .step w
    · rw [hw] at hs
      simp only [stepSys] at hs
      unfold stepWorker at hs
      unfold Sys.isDone at ih
      cases hpc : ((S (k + d)).ws w).pc with
      | done =>
        simp only [hpc, Outcome.ok.injEq] at hs
        show (S (k + d + 1)).isDone w
        rw [← hs]
        unfold Sys.isDone
        rw [hpc]
        trivial
      | fetch => rw [hpc] at ih; exact ih.elim
      | run l => rw [hpc] at ih; exact ih.elim
      | signal e => rw [hpc] at ih; exact ih.elim
      | check => rw [hpc] at ih; exact ih.elim
    · have := stepSys_other hw hs
      show (S (k + d + 1)).isDone w
      unfold Sys.isDone at ih ⊢
      rw [this]
      exact ih

section OfProg
variable {No len : Nat} {base : Nat → Nat} {level : ErrorLevel} {prog : Nat → Prog F SIRError}

/-- A worker that gets its turns comes to its end. -/
theorem Trace.ends {σ : Nat → Act} {S : Nat → Sys F (Prog F SIRError)}
    (T : Trace (Drv.ofProg No len base level prog).task σ S) (w : Nat)
    (fair : ∀ k, ∃ j, k ≤ j ∧ σ j = .step w) (hspin : ∀ n, n < No → (prog n).NoSpin) :
    ∀ (d k : Nat), ((S k).ws w).stop - ((S k).ws w).n ≤ d → ((S k).ws w).stop ≤ No →
      (match ((S k).ws w).pc with
        | .run p => p.NoSpin ∧ ((S k).ws w).n < ((S k).ws w).stop
        | .signal _ => ((S k).ws w).n < ((S k).ws w).stop
        | .check => ((S k).ws w).n < ((S k).ws w).stop
        | _ => True) → ∃ j, (S j).isDone w := by
  intro d
  induction d with
  | zero =>
    intro k hd hst hpc
    obtain ⟨j, hj, hws, hstep⟩ := T.next w fair k
    cases hp : ((S k).ws w).pc with
    | done => exact ⟨k, by unfold Sys.isDone; rw [hp]; trivial⟩
    | fetch =>
      refine ⟨j + 1, ?_⟩
      unfold stepWorker at hstep
      simp only [hws, hp] at hstep
      rw [if_neg (by omega)] at hstep
      simp only [Outcome.ok.injEq] at hstep
      rw [← hstep]
      unfold Sys.isDone
      simp [Sys.setW]
    | run p => rw [hp] at hpc; omega
    | signal e => rw [hp] at hpc; simp only at hpc; omega
    | check => rw [hp] at hpc; simp only at hpc; omega
  | succ d ih =>
    -- the end of a column
    have atCheck : ∀ k, ((S k).ws w).pc = .check → ((S k).ws w).n < ((S k).ws w).stop →
        ((S k).ws w).stop - ((S k).ws w).n ≤ d + 1 → ((S k).ws w).stop ≤ No → ∃ j, (S j).isDone w := by
      intro k hp hlt hd hst
      obtain ⟨j, hj, hws, hstep⟩ := T.next w fair k
      unfold stepWorker at hstep
      simp only [hws, hp] at hstep
      split at hstep
      · simp only [Outcome.ok.injEq] at hstep
        have hw' : (S (j + 1)).ws w = { (S k).ws w with n := ((S k).ws w).n + 1, pc := .fetch } := by
          rw [← hstep]; simp [Sys.setW]
        refine ih (j + 1) ?_ ?_ ?_ <;> rw [hw']
        · simp only; omega
        · exact hst
        · trivial
      · simp only [Outcome.ok.injEq] at hstep
        refine ⟨j + 1, ?_⟩
        rw [← hstep]
        unfold Sys.isDone
        simp [Sys.setW]
    have atSignal : ∀ k e, ((S k).ws w).pc = .signal e → ((S k).ws w).n < ((S k).ws w).stop →
        ((S k).ws w).stop - ((S k).ws w).n ≤ d + 1 → ((S k).ws w).stop ≤ No → ∃ j, (S j).isDone w := by
      intro k e hp hlt hd hst
      obtain ⟨j, hj, hws, hstep⟩ := T.next w fair k
      unfold stepWorker at hstep
      simp only [hws, hp, Outcome.ok.injEq] at hstep
      have hw' : (S (j + 1)).ws w = { (S k).ws w with pc := .check } := by
        rw [← hstep]; simp [Sys.setW]
      refine atCheck (j + 1) ?_ ?_ ?_ ?_ <;> rw [hw'] <;> assumption
    have atRun : ∀ (p : Prog F SIRError) k, ((S k).ws w).pc = .run p → p.NoSpin →
        ((S k).ws w).n < ((S k).ws w).stop →
        ((S k).ws w).stop - ((S k).ws w).n ≤ d + 1 → ((S k).ws w).stop ≤ No → ∃ j, (S j).isDone w := by
      intro p
      induction p with
      | ret e =>
        intro k hp _ hlt hd hst
        obtain ⟨j, hj, hws, hstep⟩ := T.next w fair k
        unfold stepWorker at hstep
        simp only [hws, hp] at hstep
        simp only [Drv.task, effTask, Drv.ofProg, Prog.eff, Eff.onBuf, Outcome.bind,
          Outcome.ok.injEq] at hstep
        have hw' : (S (j + 1)).ws w = { (S k).ws w with
            pc := .signal e, err := if e = SIRError.none then ((S k).ws w).err else e } := by
          rw [← hstep]; simp [Sys.setW]
        refine atSignal (j + 1) e ?_ ?_ ?_ ?_ <;> rw [hw'] <;> assumption
      | bad e =>
        intro k hp _ hlt hd hst
        obtain ⟨j, hj, hws, hstep⟩ := T.next w fair k
        unfold stepWorker at hstep
        simp only [hws, hp] at hstep
        simp [Drv.task, effTask, Drv.ofProg, Prog.eff, Eff.onBuf, Outcome.bind] at hstep
      | spin => intro k hp hs; exact hs.elim
      | rd a q ihq =>
        intro k hp hs hlt hd hst
        obtain ⟨j, hj, hws, hstep⟩ := T.next w fair k
        unfold stepWorker at hstep
        simp only [hws, hp] at hstep
        simp only [Drv.task, effTask, Drv.ofProg, Prog.eff, Eff.onBuf] at hstep
        cases hr : (S j).mem.read ((base ((S k).ws w).n : Int) + a) with
        | ub e => rw [hr] at hstep; simp [Outcome.bind] at hstep
        | fuel => rw [hr] at hstep; simp [Outcome.bind] at hstep
        | ok v =>
          rw [hr] at hstep
          simp only [Outcome.bind, Outcome.ok.injEq] at hstep
          have hw' : (S (j + 1)).ws w = { (S k).ws w with pc := .run (q v) } := by
            rw [← hstep]; simp [Sys.setW]
          refine ihq v (j + 1) ?_ (hs v) ?_ ?_ ?_ <;> rw [hw'] <;> assumption
      | wr a x q ihq =>
        intro k hp hs hlt hd hst
        obtain ⟨j, hj, hws, hstep⟩ := T.next w fair k
        unfold stepWorker at hstep
        simp only [hws, hp] at hstep
        simp only [Drv.task, effTask, Drv.ofProg, Prog.eff, Eff.onBuf] at hstep
        cases hr : (S j).mem.write ((base ((S k).ws w).n : Int) + a) x with
        | ub e => rw [hr] at hstep; simp [Outcome.bind] at hstep
        | fuel => rw [hr] at hstep; simp [Outcome.bind] at hstep
        | ok v =>
          rw [hr] at hstep
          simp only [Outcome.bind, Outcome.ok.injEq] at hstep
          have hw' : (S (j + 1)).ws w = { (S k).ws w with pc := .run q } := by
            rw [← hstep]; simp [Sys.setW]
          refine ihq (j + 1) ?_ hs ?_ ?_ ?_ <;> rw [hw'] <;> assumption
    intro k hd hst hpc
    cases hp : ((S k).ws w).pc with
    | done => exact ⟨k, by unfold Sys.isDone; rw [hp]; trivial⟩
    | check => rw [hp] at hpc; exact atCheck k hp hpc hd hst
    | signal e => rw [hp] at hpc; exact atSignal k e hp hpc hd hst
    | run p => rw [hp] at hpc; exact atRun p k hp hpc.1 hpc.2 hd hst
    | fetch =>
      obtain ⟨j, hj, hws, hstep⟩ := T.next w fair k
      unfold stepWorker at hstep
      simp only [hws, hp] at hstep
      split at hstep
      · next hlt =>
        simp only [Drv.task, effTask, Drv.ofProg, Outcome.bind, Outcome.ok.injEq] at hstep
        have hw' : (S (j + 1)).ws w = { (S k).ws w with pc := .run (prog ((S k).ws w).n) } := by
          rw [← hstep]; simp [Sys.setW]
        refine atRun (prog ((S k).ws w).n) (j + 1) ?_ (hspin _ (by omega)) ?_ ?_ ?_ <;> rw [hw'] <;>
          assumption
      · simp only [Outcome.ok.injEq] at hstep
        refine ⟨j + 1, ?_⟩
        rw [← hstep]
        unfold Sys.isDone
        simp [Sys.setW]

/-- Programs without endless loops: under every schedule that gives every worker a turn again and again, the
workers come to their end or meet undefined behaviour. -/
theorem Drv.ofProg_ends (m : Buf F) (nth : Nat) (hspin : ∀ n, n < No → (prog n).NoSpin) (σ : Nat → Act)
    (fair : ∀ w, w < nth → ∀ k, ∃ j, k ≤ j ∧ σ j = .step w)
    (h : ∀ k, ∃ s', exec (Drv.ofProg No len base level prog).task ((List.range k).map σ) (initSys No nth m) =
      .ok s') :
    ∃ k s', exec (Drv.ofProg No len base level prog).task ((List.range k).map σ) (initSys No nth m) = .ok s' ∧
      s'.allDone nth := by
  obtain ⟨S, T, h0, hS⟩ := trace_of _ σ _ h
  have each : ∀ w, w < nth → ∃ j, (S j).isDone w := by
    intro w hw
    have hws : (S 0).ws w =
        { n := rangeStart No nth w, stop := rangeStop No nth w, pc := .fetch, err := .none } := by
      rw [h0]; simp [initSys, hw]
    refine T.ends w (fair w hw) hspin (rangeStop No nth w) 0 ?_ ?_ ?_ <;> rw [hws]
    · exact Nat.sub_le _ _
    · have := rangeStart_le No nth (w + 1) (by omega) (by omega)
      rwa [← rangeStop_eq] at this
    · trivial
  have all : ∀ n, n ≤ nth → ∃ k, ∀ w, w < n → (S k).isDone w := by
    intro n
    induction n with
    | zero => exact fun _ => ⟨0, fun w hw => absurd hw (by omega)⟩
    | succ n ih =>
      intro hn
      obtain ⟨k, hk⟩ := ih (by omega)
      obtain ⟨j, hj⟩ := each n (by omega)
      refine ⟨k + j, fun w hw => ?_⟩
      by_cases e : w = n
      · subst e; rw [Nat.add_comm]; exact T.done_stays w j hj k
      · exact T.done_stays w k (hk w (by omega)) j
  obtain ⟨k, hk⟩ := all nth (Nat.le_refl _)
  exact ⟨k, S k, hS k, hk⟩

/-- A driver of column programs without endless loops. -/
def Drv.Spinless (D : Drv F (Prog F SIRError)) : Prop :=
  ∃ prog, D = Drv.ofProg D.No D.len D.base D.level prog ∧ ∀ n, n < D.No → (prog n).NoSpin

/-- If no schedule without abort is a complete run, some schedule (for instance: the workers take turns)
meets undefined behaviour. -/
theorem Drv.Spinless.undefined {D : Drv F (Prog F SIRError)} (hD : D.Spinless) (m : Buf F) (nth : Nat)
    (hn : 1 ≤ nth) (h : ∀ as s', Act.abort ∉ as → ¬ D.Run nth m as s') :
    ∃ as, Act.abort ∉ as ∧ ∀ s', exec D.task as (initSys D.No nth m) ≠ .ok s' := by
  obtain ⟨prog, hp, hs⟩ := hD
  refine Classical.byContradiction fun hno => ?_
  have hok : ∀ as, Act.abort ∉ as → ∃ s', exec D.task as (initSys D.No nth m) = .ok s' := by
    intro as ha
    refine Classical.byContradiction fun h2 => hno ⟨as, ha, fun s' e => h2 ⟨s', e⟩⟩
  have hab : ∀ k, Act.abort ∉ (List.range k).map fun j => Act.step (j % nth) := by
    intro k hm
    obtain ⟨j, _, e⟩ := List.mem_map.1 hm
    cases e
  have fair : ∀ w, w < nth → ∀ k, ∃ j, k ≤ j ∧ (fun j => Act.step (j % nth)) j = .step w := by
    intro w hw k
    refine ⟨k * nth + w, ?_, ?_⟩
    · have : k * 1 ≤ k * nth := Nat.mul_le_mul_left k hn
      omega
    · show Act.step ((k * nth + w) % nth) = _
      rw [Nat.add_comm, Nat.add_mul_mod_self_right, Nat.mod_eq_of_lt hw]
  have ht : D.task = (Drv.ofProg D.No D.len D.base D.level prog).task := congrArg Drv.task hp
  obtain ⟨k, s', e1, e2⟩ := Drv.ofProg_ends (len := D.len) (base := D.base) (level := D.level) m nth hs
    (fun j => Act.step (j % nth)) fair (fun k => by rw [← ht]; exact hok _ (hab k))
  rw [← ht] at e1
  exact h _ s' (hab k) ⟨e1, e2⟩

/-- Such a driver does not go on forever. -/
theorem Drv.Spinless.ends {D : Drv F (Prog F SIRError)} (hD : D.Spinless) (m : Buf F) (nth : Nat)
    (σ : Nat → Act) (fair : ∀ w, w < nth → ∀ k, ∃ j, k ≤ j ∧ σ j = .step w) :
    ¬ ∀ k, ∃ s', exec D.task ((List.range k).map σ) (initSys D.No nth m) = .ok s' ∧ ¬ s'.allDone nth := by
  obtain ⟨prog, hp, hs⟩ := hD
  intro h
  have ht : D.task = (Drv.ofProg D.No D.len D.base D.level prog).task := congrArg Drv.task hp
  obtain ⟨k, s', e1, e2⟩ := Drv.ofProg_ends (len := D.len) (base := D.base) (level := D.level) m nth hs σ fair
    (fun k => by obtain ⟨s', e, _⟩ := h k; exact ⟨s', by rw [← ht]; exact e⟩)
  obtain ⟨s2, e3, e4⟩ := h k
  rw [← ht, e3] at e1
  simp only [Outcome.ok.injEq] at e1
  exact e4 (e1 ▸ e2)

end OfProg

end Dream
