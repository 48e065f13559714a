import Verif.Spawn
import Verif.ClaimsSignals
import Verif.ClaimsInPlace
import Verif.Driver
import Verif.Arr
import Verif.Analytic
import Verif.Superpos
import Verif.Toy

/-
C83: creation of the worker threads, and what happens when the operating system refuses one.
-/

namespace Dream
open Arith

variable {F : Type} [Arith F] {L : Type}

/-- A worker of this driver cannot finish a column without touching the output matrix: run alone on a
column without entries the program of a column does not end. -/
def Drv.NeedsColumn (D : Drv F L) : Prop :=
  ∀ n, n < D.No → ∀ l, D.begin n = .ok l → ∀ k c r, ¬ Evals (effCol D.step 0) n k l c r

/-! ### No thread is refused -/

theorem spExec_append (t : Task F L) (nth : Nat) (es fs : List SpEv) (s : SpSys F L) :
    spExec t nth (es ++ fs) s = (spExec t nth es s).bind (spExec t nth fs) := by
  induction es generalizing s with
  | nil => rfl
  | cons e es ih =>
    simp only [List.cons_append, spExec]
    cases spStep t nth e s with
    | ok s' => simp only [Outcome.bind]; exact ih s'
    | ub e => rfl
    | fuel => rfl

/-- C83: creating the workers one after the other adds no behaviour: if no thread is refused, the
process is in a state that the driver can reach with all workers there from the start, and CTRL-C is
part of that execution exactly if it was pressed. -/
theorem C83_one_after_the_other (D : Drv F L) (nth : Nat) (m : Buf F) (evs : List SpEv)
    (hr : SpEv.refuse ∉ evs) (s : SpSys F L)
    (h : spExec D.task nth evs (spInit D.No nth m) = .ok s) :
    s.gone = false ∧ s.created ≤ nth ∧ ∃ as, exec D.task as (initSys D.No nth m) = .ok s.sys ∧
      (Act.abort ∈ as ↔ SpEv.act .abort ∈ evs) := by
  have gen : ∀ (evs : List SpEv) (s0 s : SpSys F L), SpEv.refuse ∉ evs → s0.gone = false →
      s0.created ≤ nth → spExec D.task nth evs s0 = .ok s →
      s.gone = false ∧ s.created ≤ nth ∧ ∃ as, exec D.task as s0.sys = .ok s.sys ∧
        (Act.abort ∈ as ↔ SpEv.act .abort ∈ evs) := by
    intro evs
    induction evs with
    | nil =>
      intro s0 s _ hg hc h
      simp only [spExec, Outcome.ok.injEq] at h
      subst h
      exact ⟨hg, hc, [], rfl, by simp⟩
    | cons e evs ih =>
      intro s0 s hr hg hc h
      simp only [spExec] at h
      have hr' : SpEv.refuse ∉ evs := fun x => hr (List.mem_cons_of_mem _ x)
      cases e with
      | refuse => exact absurd List.mem_cons_self hr
      | create =>
        simp only [spStep] at h
        by_cases hcr : s0.created < nth
        · rw [if_pos ⟨hg, hcr⟩] at h
          obtain ⟨g1, g2, as, g3, g4⟩ := ih { s0 with created := s0.created + 1 } s hr' hg hcr h
          exact ⟨g1, g2, as, g3, by rw [g4]; simp⟩
        · rw [if_neg (fun x => hcr x.2)] at h
          obtain ⟨g1, g2, as, g3, g4⟩ := ih s0 s hr' hg hc h
          exact ⟨g1, g2, as, g3, by rw [g4]; simp⟩
      | act a =>
        cases a with
        | abort =>
          simp only [spStep, Outcome.bind] at h
          obtain ⟨g1, g2, as, g3, g4⟩ :=
            ih { s0 with sys := { s0.sys with running := false } } s hr' hg hc h
          exact ⟨g1, g2, .abort :: as, by simpa [exec, stepSys, Outcome.bind] using g3, by simp⟩
        | step w =>
          simp only [spStep] at h
          by_cases hw : w < s0.created
          · rw [if_pos hw] at h
            cases hs : stepWorker D.task w s0.sys with
            | ub e => rw [hs] at h; simp [Outcome.map, Outcome.bind] at h
            | fuel => rw [hs] at h; simp [Outcome.map, Outcome.bind] at h
            | ok y =>
              rw [hs] at h
              simp only [Outcome.map, Outcome.bind] at h
              obtain ⟨g1, g2, as, g3, g4⟩ := ih { s0 with sys := y } s hr' hg hc h
              refine ⟨g1, g2, .step w :: as, ?_, by simp [g4]⟩
              simp only [exec, stepSys, hs, Outcome.bind]
              exact g3
          · rw [if_neg hw] at h
            obtain ⟨g1, g2, as, g3, g4⟩ := ih s0 s hr' hg hc h
            exact ⟨g1, g2, as, g3, by rw [g4]; simp⟩
  exact gen evs _ s hr rfl (Nat.zero_le _) h

theorem spExec_creates (t : Task F L) (nth k : Nat) (s : SpSys F L) (hg : s.gone = false)
    (hk : s.created + k ≤ nth) :
    spExec t nth (List.replicate k .create) s = .ok { s with created := s.created + k } := by
  induction k generalizing s with
  | zero => rfl
  | succ k ih =>
    simp only [List.replicate_succ, spExec, spStep]
    rw [if_pos ⟨hg, by omega⟩]
    simp only [Outcome.bind]
    rw [ih { s with created := s.created + 1 } hg (by simp only; omega)]
    simp only [Outcome.ok.injEq, SpSys.mk.injEq, true_and, and_true]
    omega

/-- With all workers created first, the events are those of the driver model: every execution of the
driver is possible. -/
theorem C83_all_created (D : Drv F L) (nth : Nat) (m : Buf F) (as : List Act)
    (h : ∀ w, Act.step w ∈ as → w < nth) (s' : Sys F L)
    (he : exec D.task as (initSys D.No nth m) = .ok s') :
    spExec D.task nth (List.replicate nth .create ++ as.map .act) (spInit D.No nth m) =
      .ok ⟨s', nth, false⟩ := by
  rw [spExec_append, spExec_creates _ _ _ _ rfl (by simp [spInit])]
  simp only [Outcome.bind, spInit, Nat.zero_add]
  generalize (initSys D.No nth m : Sys F L) = s at he
  induction as generalizing s with
  | nil =>
    simp only [exec, Outcome.ok.injEq] at he
    subst he; rfl
  | cons a as ih =>
    have h' : ∀ w, Act.step w ∈ as → w < nth := fun w hw => h w (List.mem_cons_of_mem _ hw)
    simp only [exec] at he
    cases a with
    | abort =>
      simp only [stepSys, Outcome.bind] at he
      simp only [List.map_cons, spExec, spStep, Outcome.bind]
      exact ih h' _ he
    | step w =>
      simp only [stepSys] at he
      cases hs : stepWorker D.task w s with
      | ub e => rw [hs] at he; simp [Outcome.bind] at he
      | fuel => rw [hs] at he; simp [Outcome.bind] at he
      | ok y =>
        rw [hs] at he
        simp only [Outcome.bind] at he
        simp only [List.map_cons, spExec, spStep]
        rw [if_pos (h w List.mem_cons_self), hs]
        simp only [Outcome.map, Outcome.bind]
        exact ih h' _ he

/-! ### The first thread is refused -/

/-- C83: if the very first thread is refused, no worker ever runs: whatever happens, nothing has been
written to the matrix and no memory is touched. -/
theorem C83_first_refused (D : Drv F L) (nth : Nat) (m : Buf F) (evs : List SpEv)
    (hc : SpEv.create ∉ evs) :
    ∃ s, spExec D.task nth evs (spInit D.No nth m) = .ok s ∧ s.created = 0 ∧
      s.sys.ws = (initSys D.No nth m : Sys F L).ws ∧ s.sys.mem.data = m.data := by
  have gen : ∀ (evs : List SpEv) (s0 : SpSys F L), SpEv.create ∉ evs → s0.created = 0 →
      ∃ s, spExec D.task nth evs s0 = .ok s ∧ s.created = 0 ∧ s.sys.ws = s0.sys.ws ∧
        s.sys.mem.data = s0.sys.mem.data := by
    intro evs
    induction evs with
    | nil => intro s0 _ h0; exact ⟨s0, rfl, h0, rfl, rfl⟩
    | cons e evs ih =>
      intro s0 hc h0
      have hc' : SpEv.create ∉ evs := fun x => hc (List.mem_cons_of_mem _ x)
      simp only [spExec]
      cases e with
      | create => exact absurd List.mem_cons_self hc
      | refuse =>
        simp only [spStep]
        by_cases hcr : s0.gone = false ∧ s0.created < nth
        · rw [if_pos hcr]
          obtain ⟨s, g1, g2, g3, g4⟩ := ih
            { s0 with sys := { s0.sys with mem := { s0.sys.mem with size := 0 } }, gone := true } hc' h0
          exact ⟨s, g1, g2, g3, g4⟩
        · rw [if_neg hcr]; exact ih s0 hc' h0
      | act a =>
        cases a with
        | abort =>
          obtain ⟨s, g1, g2, g3, g4⟩ := ih { s0 with sys := { s0.sys with running := false } } hc' h0
          exact ⟨s, g1, g2, g3, g4⟩
        | step w =>
          simp only [spStep]
          rw [if_neg (by omega)]
          exact ih s0 hc' h0
  exact gen evs _ hc rfl

/-! ### A later thread is refused -/

/-- On a block without entries a step does what it does on a column without entries. -/
theorem Eff.onBuf_empty (e : Eff F L) (b : Nat) (m : Buf F) (hm : m.size = 0) (m' : Buf F)
    (r : L ⊕ SIRError) (h : e.onBuf b m = .ok (m', r)) :
    m' = m ∧ ∀ c : Nat → F, e.onCol 0 c = .ok (c, r) := by
  cases e with
  | tau l => simp only [Eff.onBuf, Outcome.ok.injEq, Prod.mk.injEq] at h; obtain ⟨rfl, rfl⟩ := h
             exact ⟨rfl, fun c => rfl⟩
  | ret e => simp only [Eff.onBuf, Outcome.ok.injEq, Prod.mk.injEq] at h; obtain ⟨rfl, rfl⟩ := h
             exact ⟨rfl, fun c => rfl⟩
  | bad e => simp [Eff.onBuf] at h
  | rd j k => simp only [Eff.onBuf, Buf.read] at h; rw [if_neg (by omega)] at h; simp at h
  | wr j x l => simp only [Eff.onBuf, Buf.write] at h; rw [if_neg (by omega)] at h; simp at h

/-- Worker `w` has columns left and cannot finish the one it is at without the matrix. -/
def Doomed (D : Drv F L) (w : Nat) (s : Sys F L) : Prop :=
  s.mem.size = 0 ∧ (s.ws w).n < D.No ∧ (s.ws w).n < (s.ws w).stop ∧
    match (s.ws w).pc with
    | .fetch => True
    | .run l => ∀ k c r, ¬ Evals (effCol D.step 0) (s.ws w).n k l c r
    | _ => False

theorem Doomed.step {D : Drv F L} (hD : D.NeedsColumn) {w v : Nat} {s s' : Sys F L}
    (h : Doomed D w s) (he : stepWorker D.task v s = .ok s') : Doomed D w s' := by
  obtain ⟨h1, h2, h3, h4⟩ := h
  unfold stepWorker at he
  by_cases hv : v = w
  · subst hv
    generalize hx : s.ws v = x at he h2 h3 h4
    obtain ⟨n, stop, pc, err⟩ := x
    cases pc with
    | fetch =>
      simp only at he h2 h3
      rw [if_pos h3] at he
      cases hb : D.task.begin n with
      | ub e => rw [hb] at he; simp [Outcome.bind] at he
      | fuel => rw [hb] at he; simp [Outcome.bind] at he
      | ok l =>
        rw [hb] at he
        simp only [Outcome.bind, Outcome.ok.injEq] at he
        subst he
        refine ⟨h1, ?_⟩
        simp only [Sys.setW, if_true]
        exact ⟨h2, h3, hD n h2 l hb⟩
    | run l =>
      simp only at he h2 h3 h4
      cases hm : D.task.micro n l s.mem with
      | ub e => rw [hm] at he; simp [Outcome.bind] at he
      | fuel => rw [hm] at he; simp [Outcome.bind] at he
      | ok q =>
        obtain ⟨m', r⟩ := q
        obtain ⟨rfl, hcol⟩ := Eff.onBuf_empty _ _ _ h1 _ _ hm
        rw [hm] at he
        simp only [Outcome.bind] at he
        cases r with
        | inr e => exact absurd (Evals.last (hcol (fun _ => lit 0))) (h4 _ _ _)
        | inl l' =>
          simp only [Outcome.ok.injEq] at he
          subst he
          refine ⟨h1, ?_⟩
          simp only [Sys.setW, if_true]
          refine ⟨h2, h3, fun k c r hev => h4 (k + 1) c r (.more (hcol c) hev)⟩
    | signal e => exact h4.elim
    | check => exact h4.elim
    | done => exact h4.elim
  · have keep : ∀ (t : Sys F L) (x : Worker L), t.mem.size = 0 → t.ws = s.ws →
        Doomed D w (t.setW v x) := by
      intro t x ht hws
      refine ⟨ht, ?_⟩
      simp only [Sys.setW, if_neg (Ne.symm hv), hws]
      exact ⟨h2, h3, h4⟩
    generalize hx : s.ws v = x at he
    obtain ⟨n, stop, pc, err⟩ := x
    cases pc with
    | fetch =>
      simp only at he
      split at he
      · cases hb : D.task.begin n with
        | ub e => rw [hb] at he; simp [Outcome.bind] at he
        | fuel => rw [hb] at he; simp [Outcome.bind] at he
        | ok l =>
          rw [hb] at he
          simp only [Outcome.bind, Outcome.ok.injEq] at he
          subst he
          exact keep s _ h1 rfl
      · simp only [Outcome.ok.injEq] at he
        subst he
        exact keep s _ h1 rfl
    | run l =>
      simp only at he
      cases hm : D.task.micro n l s.mem with
      | ub e => rw [hm] at he; simp [Outcome.bind] at he
      | fuel => rw [hm] at he; simp [Outcome.bind] at he
      | ok q =>
        obtain ⟨m', r⟩ := q
        obtain ⟨rfl, -⟩ := Eff.onBuf_empty _ _ _ h1 _ _ hm
        rw [hm] at he
        cases r with
        | inr e =>
          simp only [Outcome.bind, Outcome.ok.injEq] at he
          subst he
          exact keep { s with mem := s.mem } _ h1 rfl
        | inl l' =>
          simp only [Outcome.bind, Outcome.ok.injEq] at he
          subst he
          exact keep { s with mem := s.mem } _ h1 rfl
    | signal e =>
      simp only [Outcome.ok.injEq] at he
      subst he
      exact keep { s with running := _ } _ h1 rfl
    | check =>
      simp only at he
      split at he <;> simp only [Outcome.ok.injEq] at he <;> subst he <;> exact keep s _ h1 rfl
    | done =>
      simp only [Outcome.ok.injEq] at he
      subst he
      exact ⟨h1, h2, h3, h4⟩

/-- A doomed worker never returns: after the exception it is in no execution without undefined
behaviour ever done. -/
theorem Doomed.exec {D : Drv F L} (hD : D.NeedsColumn) (nth : Nat) {w : Nat} (evs : List SpEv)
    (s s' : SpSys F L) (h : Doomed D w s.sys) (hg : s.gone = true)
    (he : spExec D.task nth evs s = .ok s') : Doomed D w s'.sys := by
  induction evs generalizing s with
  | nil => simp only [spExec, Outcome.ok.injEq] at he; subst he; exact h
  | cons e evs ih =>
    simp only [spExec] at he
    cases e with
    | create =>
      simp only [spStep] at he
      rw [if_neg (by simp [hg])] at he
      exact ih s h hg he
    | refuse =>
      simp only [spStep] at he
      rw [if_neg (by simp [hg])] at he
      exact ih s h hg he
    | act a =>
      cases a with
      | abort => exact ih { s with sys := { s.sys with running := false } } (by exact h) hg he
      | step v =>
        simp only [spStep] at he
        split at he
        · cases hs : stepWorker D.task v s.sys with
          | ub e => rw [hs] at he; simp [Outcome.map, Outcome.bind] at he
          | fuel => rw [hs] at he; simp [Outcome.map, Outcome.bind] at he
          | ok y =>
            rw [hs] at he
            simp only [Outcome.map, Outcome.bind] at he
            exact ih { s with sys := y } (h.step hD hs) hg he
        · exact ih s h hg he

theorem Doomed.not_done {D : Drv F L} {w : Nat} {s : Sys F L} (h : Doomed D w s) : ¬ s.isDone w := by
  have := h.2.2.2
  unfold Sys.isDone
  intro hd
  split at hd
  · next hpc => rw [hpc] at this; exact this
  · exact hd

/-- A program that ends on its column but not on an empty one, run on an empty block, ends in an access
to memory outside the block. -/
theorem run_into_void (D : Drv F L) (nth w n : Nat) (k : Nat) : ∀ (l : L) (s : SpSys F L) (c : Nat → F)
    (r : (Nat → F) × SIRError), s.sys.mem.size = 0 → w < s.created → (s.sys.ws w).pc = .run l →
    (s.sys.ws w).n = n → Evals (effCol D.step D.len) n k l c r →
    (∀ k c r, ¬ Evals (effCol D.step 0) n k l c r) →
    ∃ j, spExec D.task nth (List.replicate j (.act (.step w))) s = .ub .oob := by
  induction k with
  | zero => intro l s c r _ _ _ _ h; cases h
  | succ k ih =>
    intro l s c r hm hw hpc hn hev hno
    subst hn
    have hmic : D.task.micro (s.sys.ws w).n l s.sys.mem = (D.step (s.sys.ws w).n l).onBuf (D.base (s.sys.ws w).n) s.sys.mem := rfl
    have one : ∀ {o}, D.task.micro (s.sys.ws w).n l s.sys.mem = .ub o →
        spExec D.task nth (List.replicate 1 (.act (.step w))) s = .ub o := by
      intro o ho
      simp only [List.replicate, spExec, spStep]
      rw [if_pos hw]
      simp only [stepWorker, hpc, ho]
      rfl
    cases hs : D.step (s.sys.ws w).n l with
    | ret e =>
      refine absurd (Evals.last (c := c) (c' := c) (e := e) ?_) (hno 1 c _)
      simp only [effCol, hs, Eff.onCol]
    | bad e =>
      cases hev with
      | last h1 => simp [effCol, hs, Eff.onCol] at h1
      | more h1 _ => simp [effCol, hs, Eff.onCol] at h1
    | rd j f =>
      refine ⟨1, one ?_⟩
      rw [hmic, hs]
      simp only [Eff.onBuf, Buf.read]
      rw [if_neg (by omega)]
      rfl
    | wr j x l' =>
      refine ⟨1, one ?_⟩
      rw [hmic, hs]
      simp only [Eff.onBuf, Buf.write]
      rw [if_neg (by omega)]
      rfl
    | tau l' =>
      cases hev with
      | last h1 => simp [effCol, hs, Eff.onCol] at h1
      | more h1 h2 =>
        simp only [effCol, hs, Eff.onCol, Outcome.ok.injEq, Prod.mk.injEq, Sum.inl.injEq] at h1
        obtain ⟨rfl, rfl⟩ := h1
        obtain ⟨j, hj⟩ := ih l' { s with sys := s.sys.setW w { s.sys.ws w with pc := .run l' } } c r hm hw
          (by simp [Sys.setW]) (by simp [Sys.setW]) h2
          (fun k c r h => hno (k + 1) c r (.more (by simp [effCol, hs, Eff.onCol]) h))
        refine ⟨j + 1, ?_⟩
        simp only [List.replicate_succ, spExec, spStep]
        rw [if_pos hw]
        simp only [stepWorker, hpc, hmic, hs, Eff.onBuf, Outcome.bind, Outcome.map]
        exact hj

namespace Drv
variable {D : Drv F L} {m : Buf F}

/-- A thread is refused when worker `w` has been created and has not begun its next column.  Then
`w` never returns in any execution without undefined behaviour, and it accesses released memory if it
goes on. -/
theorem refused (hs : D.Faithful m) (hd : D.Defined m) (hD : D.NeedsColumn) (nth : Nat)
    (evs : List SpEv) (s : SpSys F L)
    (he : spExec D.task nth evs (spInit D.No nth m) = .ok s) (hg : s.gone = false) (hlt : s.created < nth)
    (w : Nat) (hw : w < s.created)
    (hpc : (s.sys.ws w).pc = .fetch) (hno : (s.sys.ws w).n < D.No)
    (hn : (s.sys.ws w).n < (s.sys.ws w).stop) :
    (∀ rest s', spExec D.task nth (evs ++ .refuse :: rest) (spInit D.No nth m) = .ok s' →
      ¬ s'.sys.isDone w) ∧
    ∃ k, spExec D.task nth (evs ++ .refuse :: List.replicate k (.act (.step w)))
      (spInit D.No nth m) = .ub .oob := by
  let s1 : SpSys F L :=
    { s with sys := { s.sys with mem := { s.sys.mem with size := 0 } }, gone := true }
  have h1 : ∀ rest, spExec D.task nth (evs ++ .refuse :: rest) (spInit D.No nth m) =
      spExec D.task nth rest s1 := by
    intro rest
    rw [spExec_append, he]
    simp only [Outcome.bind, spExec, spStep]
    rw [if_pos ⟨hg, hlt⟩]
  have hdoom : Doomed D w s1.sys := by
    refine ⟨rfl, hno, hn, ?_⟩
    show (match (s.sys.ws w).pc with
      | .fetch => True
      | .run l => ∀ k c r, ¬ Evals (effCol D.step 0) (s.sys.ws w).n k l c r
      | _ => False)
    rw [hpc]; trivial
  constructor
  · intro rest s' h
    rw [h1] at h
    exact (hdoom.exec hD nth rest s1 s' rfl h).not_done
  · obtain ⟨fuel, r, hr⟩ := hd _ hno
    obtain ⟨l, c, hb, -, ⟨j, hev⟩, -⟩ := hs.prog _ hno fuel r hr
    obtain ⟨j', hj'⟩ := run_into_void D nth w (s.sys.ws w).n j l
      { s1 with sys := s1.sys.setW w { s.sys.ws w with pc := .run l } } _ _ rfl hw (by simp [Sys.setW])
      (by simp [Sys.setW]) hev (hD _ hno l hb)
    refine ⟨j' + 1, ?_⟩
    rw [h1]
    simp only [List.replicate_succ, spExec, spStep]
    rw [if_pos (by exact hw)]
    have hst : stepWorker D.task w s1.sys = .ok (s1.sys.setW w { s.sys.ws w with pc := .run l }) := by
      show (match (s.sys.ws w).pc with | _ => _) = _
      unfold stepWorker
      have : (s1.sys.ws w) = s.sys.ws w := rfl
      simp only [this, hpc]
      rw [if_pos hn]
      have hb' : D.task.begin (s.sys.ws w).n = .ok l := hb
      rw [hb']
      rfl
    rw [hst]
    exact hj'

/-- A program that ends on an empty column touches nothing: on any column it ends the same way and
leaves it unchanged. -/
theorem evals_empty {step : Nat → L → Eff F L} {n len k : Nat} {l : L} {c : Nat → F}
    {r : (Nat → F) × SIRError} (h : Evals (effCol step 0) n k l c r) (d : Nat → F) :
    Evals (effCol step len) n k l d (d, r.2) := by
  have key : ∀ (l : L) (c c' : Nat → F) (x : L ⊕ SIRError), effCol step 0 n l c = .ok (c', x) →
      effCol step len n l d = .ok (d, x) := by
    intro l c c' x hx
    simp only [effCol] at hx ⊢
    cases hs : step n l with
    | tau l' => rw [hs] at hx; simp only [Eff.onCol, Outcome.ok.injEq, Prod.mk.injEq] at hx ⊢
                exact ⟨trivial, hx.2⟩
    | ret e => rw [hs] at hx; simp only [Eff.onCol, Outcome.ok.injEq, Prod.mk.injEq] at hx ⊢
               exact ⟨trivial, hx.2⟩
    | bad e => rw [hs] at hx; simp [Eff.onCol] at hx
    | rd j f => rw [hs] at hx; simp only [Eff.onCol] at hx; rw [if_neg (by omega)] at hx; simp at hx
    | wr j y l' => rw [hs] at hx; simp only [Eff.onCol] at hx; rw [if_neg (by omega)] at hx; simp at hx
  induction h with
  | last h1 => exact .last (key _ _ _ _ h1)
  | more h1 _ ih => exact .more (key _ _ _ _ h1) ih

/-- If the function changes every column, its workers cannot do without the matrix. -/
theorem needs_of_change (hs : D.Faithful m)
    (hc : ∀ n, n < D.No → ∃ fuel m' e, D.serialAt n fuel m = .ok (m', e) ∧
      ∃ i, i < D.len ∧ m'.data (D.base n + i) ≠ m.data (D.base n + i)) : D.NeedsColumn := by
  intro n hn l hb k c r hev
  obtain ⟨fuel, m', e, hser, i, hi, hne⟩ := hc n hn
  obtain ⟨l', c', hb', hm', ⟨j, hev'⟩, -⟩ := hs.prog n hn fuel _ hser
  rw [hb, Outcome.ok.injEq] at hb'
  subst hb'
  have h1 := (hev'.det (evals_empty hev (m.getCol (D.base n) D.len))).1
  simp only [Prod.mk.injEq] at h1 hm'
  apply hne
  rw [hm'.1, h1.1, Buf.setCol_getCol]

end Drv

/-- Every column the function computes differs somewhere from what is in the matrix before the call (for
the impulse responses: from zero). -/
def Drv.Visible (D : Drv F L) (m : Buf F) : Prop :=
  ∀ n, n < D.No → ∃ fuel m' e, D.serialAt n fuel m = .ok (m', e) ∧
    ∃ i, i < D.len ∧ m'.data (D.base n + i) ≠ m.data (D.base n + i)

theorem Drv.Visible.defined {D : Drv F L} {m : Buf F} (h : D.Visible m) : D.Defined m := fun n hn => by
  obtain ⟨fuel, m', e, hs, -⟩ := h n hn
  exact ⟨fuel, _, hs⟩

/-- C83 (violation): for any function whose columns are not all trivial, any number of workers up to
the number of columns, and any later thread that is refused (`k` of `nth` threads exist then): none of
the `k` workers ever returns in an execution without undefined behaviour, and every one of them
accesses released memory if it is scheduled. -/
theorem C83_later_refused (D : Drv F L) (m : Buf F) (hs : D.Faithful m) (hv : D.Visible m) (nth : Nat)
    (hn : nth ≤ D.No) (k : Nat) (hk : k < nth) (w : Nat) (hw : w < k) :
    (∀ rest s', spExec D.task nth (List.replicate k .create ++ .refuse :: rest)
      (spInit D.No nth m) = .ok s' → ¬ s'.sys.isDone w) ∧
    ∃ j, spExec D.task nth (List.replicate k .create ++ .refuse :: List.replicate j (.act (.step w)))
      (spInit D.No nth m) = .ub .oob := by
  have hlt : rangeStart D.No nth w < rangeStop D.No nth w := by
    rw [rangeStop_eq]
    unfold rangeStart
    rw [Nat.add_mul, Nat.one_mul]
    have h1 : w * D.No / nth + 1 = (w * D.No + nth) / nth := by
      rw [Nat.add_div_right _ (by omega)]
    have h2 : (w * D.No + nth) / nth ≤ (w * D.No + D.No) / nth := Nat.div_le_div_right (by omega)
    omega
  have hle : rangeStop D.No nth w ≤ D.No := by
    have := rangeStart_le D.No nth (w + 1) (by omega) (by omega)
    rwa [← rangeStop_eq] at this
  have hx : (initSys D.No nth m : Sys F L).ws w =
      ⟨rangeStart D.No nth w, rangeStop D.No nth w, .fetch, .none⟩ := by
    simp only [initSys]; rw [if_pos (by omega)]
  refine Drv.refused hs hv.defined (Drv.needs_of_change hs hv) nth _ ⟨initSys D.No nth m, k, false⟩ ?_ rfl
    hk w hw ?_ ?_ ?_
  · have := spExec_creates D.task nth k (spInit D.No nth m) rfl (by simp [spInit]; omega)
    rw [this]; simp [spInit]
  · simp only [hx]
  · simp only [hx]; omega
  · simp only [hx]; exact hlt

/-- C83: the same at any moment of the call: a worker that still has a column to begin when a thread is
refused, never returns. -/
theorem C83_refused_any_time (D : Drv F L) (m : Buf F) (hs : D.Faithful m) (hv : D.Visible m) (nth : Nat)
    (evs rest : List SpEv) (s s' : SpSys F L)
    (he : spExec D.task nth evs (spInit D.No nth m) = .ok s) (hg : s.gone = false)
    (hlt : s.created < nth) (w : Nat) (hw : w < s.created)
    (hpc : (s.sys.ws w).pc = .fetch) (hno : (s.sys.ws w).n < D.No)
    (hn : (s.sys.ws w).n < (s.sys.ws w).stop)
    (h : spExec D.task nth (evs ++ .refuse :: rest) (spInit D.No nth m) = .ok s') :
    ¬ s'.sys.isDone w :=
  (Drv.refused hs hv.defined (Drv.needs_of_change hs hv) nth evs s he hg hlt w hw hpc hno hn).1 rest s' h

theorem stepWorker_done (t : Task F L) (w : Nat) (s : Sys F L) (h : s.isDone w) :
    stepWorker t w s = .ok s := by
  unfold Sys.isDone at h
  unfold stepWorker
  cases hpc : (s.ws w).pc with
  | done => simp only [hpc]
  | fetch => rw [hpc] at h; exact h.elim
  | run l => rw [hpc] at h; exact h.elim
  | signal e => rw [hpc] at h; exact h.elim
  | check => rw [hpc] at h; exact h.elim

/-- C83: if all workers that exist have returned when a thread is refused, nothing bad happens
afterwards. -/
theorem C83_all_returned (D : Drv F L) (m : Buf F) (nth : Nat) (evs rest : List SpEv) (s : SpSys F L)
    (he : spExec D.task nth evs (spInit D.No nth m) = .ok s) (hg : s.gone = false)
    (hlt : s.created < nth) (hd : ∀ w, w < s.created → s.sys.isDone w) :
    ∃ s', spExec D.task nth (evs ++ .refuse :: rest) (spInit D.No nth m) = .ok s' ∧ s'.gone = true ∧
      s'.sys.mem.data = s.sys.mem.data := by
  rw [spExec_append, he]
  simp only [Outcome.bind, spExec, spStep]
  rw [if_pos ⟨hg, hlt⟩]
  have gen : ∀ (rest : List SpEv) (t : SpSys F L), t.gone = true →
      (∀ w, w < t.created → t.sys.isDone w) →
      ∃ s', spExec D.task nth rest t = .ok s' ∧ s'.gone = true ∧
        s'.sys.mem.data = t.sys.mem.data := by
    intro rest
    induction rest with
    | nil => intro t hg _; exact ⟨t, rfl, hg, rfl⟩
    | cons e rest ih =>
      intro t hg hd
      simp only [spExec]
      cases e with
      | create => simp only [spStep]; rw [if_neg (by simp [hg])]; exact ih t hg hd
      | refuse => simp only [spStep]; rw [if_neg (by simp [hg])]; exact ih t hg hd
      | act a =>
        cases a with
        | abort => exact ih { t with sys := { t.sys with running := false } } hg hd
        | step w =>
          simp only [spStep]
          split
          · next hw =>
            rw [stepWorker_done _ _ _ (hd w hw)]
            exact ih t hg hd
          · exact ih t hg hd
  exact gen rest
    { s with sys := { s.sys with mem := { s.sys.mem with size := 0 } }, gone := true } rfl hd

/-- C83 for the single-element functions: no response identically zero. -/
theorem C83_sir (D : SirCall F) (m : Buf F) (hm : D.Sized m)
    (hv : ∀ n, n < D.No → ∃ fuel m' e, D.serialAt n fuel m = .ok (m', e) ∧
      ∃ i, i < D.nt ∧ m'.data (n * D.nt + i) ≠ m.data (n * D.nt + i))
    (nth : Nat) (hn : nth ≤ D.No) (k : Nat) (hk : k < nth) (w : Nat) (hw : w < k) :
    (∀ rest s', spExec D.task nth (List.replicate k .create ++ .refuse :: rest)
      (spInit D.No nth m) = .ok s' → ¬ s'.sys.isDone w) ∧
    ∃ j, spExec D.task nth (List.replicate k .create ++ .refuse :: List.replicate j (.act (.step w)))
      (spInit D.No nth m) = .ub .oob :=
  C83_later_refused D.drv m (SirCall.faithful hm) hv nth hn k hk w hw

/-- C83 for the array functions. -/
theorem C83_arr (D : ArrCall F) (m : Buf F) (hm : D.drv.Faithful m)
    (hv : ∀ n, n < D.No → ∃ fuel m' e, D.serialAt n fuel m = .ok (m', e) ∧
      ∃ i, i < D.nt ∧ m'.data (n * D.nt + i) ≠ m.data (n * D.nt + i))
    (nth : Nat) (hn : nth ≤ D.No) (k : Nat) (hk : k < nth) (w : Nat) (hw : w < k) :
    (∀ rest s', spExec D.task nth (List.replicate k .create ++ .refuse :: rest)
      (spInit D.No nth m) = .ok s' → ¬ s'.sys.isDone w) ∧
    ∃ j, spExec D.task nth (List.replicate k .create ++ .refuse :: List.replicate j (.act (.step w)))
      (spInit D.No nth m) = .ub .oob :=
  C83_later_refused D.drv m hm hv nth hn k hk w hw

/-! ### Signal handlers -/

/-- C83: a call in which a thread is refused leaves its signal handlers behind, also in the functions
that put them back at the end (C76): whatever signals arrive, the handler of every signal the function
catches is its own afterwards. -/
theorem C83_handlers_left (fe : FrontEnd) (f : Fn) (p : Proc) (evs : List Ev)
    (hc : (f.cutCall fe p evs).todo = []) (s : Sig) :
    (f.cutCall fe p evs).p.handler s = if s ∈ f.catches fe then some f else p.handler s := by
  have h := foldl_handler f evs ⟨p, f.cutScript fe, fun _ => none, none, none⟩ hc
  unfold Fn.cutCall
  rw [h]
  cases f <;> cases fe <;> cases s <;>
    simp [Fn.cutScript, Fn.script, Fn.catches, Fn.restores, afterSteps, Function.update]

/-- C83: after such a call of a function that catches CTRL-C the host program never sees CTRL-C again in
the session. -/
theorem C83_ctrl_c_gone (fe : FrontEnd) (f : Fn) (p : Proc) (evs : List Ev)
    (hc : (f.cutCall fe p evs).todo = []) (hf : Sig.int ∈ f.catches fe) (q : Proc)
    (h : Session fe (f.cutCall fe p evs).p q) :
    q.handler .int ≠ none ∧ q.host.count .int = (f.cutCall fe p evs).p.host.count .int := by
  refine C76_host_deaf fe _ q h .int ?_
  rw [C83_handlers_left fe f p evs hc .int, if_pos hf]
  simp

/-! ### The hypotheses can be met -/

section Examples
attribute [local instance] toyArith

/-- Two points, both with a response. -/
def twoPoints : SirCall Int := { toyCall .stop with Ro := ⟨6, fun i => [0, 0, 0, 0, 5, 5].getD i 0⟩ }

theorem twoPoints_visible (n : Nat) (hn : n < twoPoints.No) :
    ∃ fuel m' e, twoPoints.serialAt n fuel toyOut = .ok (m', e) ∧
      ∃ i, i < twoPoints.nt ∧ m'.data (n * twoPoints.nt + i) ≠ toyOut.data (n * twoPoints.nt + i) := by
  have : n = 0 ∨ n = 1 := by
    have : n < 2 := hn
    omega
  rcases this with rfl | rfl
  · exact ⟨5, _, _, rfl, 5, by decide, by decide⟩
  · exact ⟨5, _, _, rfl, 5, by decide, by decide⟩

-- two workers, the second thread is refused: the first worker writes to released memory
example : ∃ j, spExec twoPoints.task 2 ([.create, .refuse] ++ List.replicate j (.act (.step 0)))
    (spInit 2 2 toyOut) = .ub .oob :=
  (C83_sir twoPoints toyOut ⟨rfl, rfl, rfl⟩ twoPoints_visible 2 (by decide) 1 (by decide) 0 (by decide)).2

end Examples

-- a call of conv_p in MATLAB that is cut off
example : (Fn.conv.cutCall .matlab ⟨fun _ => none, fun _ => true, []⟩ (List.replicate 4 .main)).todo = []
    ∧ (Fn.conv.cutCall .matlab ⟨fun _ => none, fun _ => true, []⟩ (List.replicate 4 .main)).p.handler .int
      = some .conv := by
  constructor <;> rfl

end Dream
