import Verif.Special
import Verif.ClaimsKernel
import Verif.ClaimsThreads
import Verif.ClaimsTerm
import Verif.ClaimsGeo
import Verif.ClaimsArr

/-
C85: arrival times that are no valid sample index; NaN and infinite arguments.
-/

namespace Dream
open Arith

variable {F : Type} [Arith F] {L : Type}

/-! ### Drivers one of whose columns never returns -/

/-- The step leads to states in `I` only, or stops the call as out of bounds. -/
def Eff.Holds (I : L → Prop) : Eff F L → Prop
  | .tau l' => I l'
  | .ret e => e = .outOfBounds
  | .bad _ => True
  | .rd _ k => ∀ x, I (k x)
  | .wr _ _ l' => I l'

/-- The step leads to states in `I` only and reports no out-of-bounds stop. -/
def Eff.NoStop (I : L → Prop) : Eff F L → Prop
  | .tau l' => I l'
  | .ret e => e ≠ .outOfBounds
  | .bad _ => True
  | .rd _ k => ∀ x, I (k x)
  | .wr _ _ l' => I l'

/-- The owner of column `n0` has not got past it. -/
def Behind (B : L → Prop) (n0 : Nat) (x : Worker L) : Prop :=
  x.n ≤ n0 ∧ n0 < x.stop ∧ match x.pc with
    | .fetch => True
    | .run l => x.n = n0 → B l
    | .signal e => x.n < n0 ∨ e = .outOfBounds
    | .check => x.n < n0
    | .done => False

theorem setW_ws (s : Sys F L) (w v : Nat) (x : Worker L) :
    (s.setW w x).ws v = if v = w then x else s.ws v := rfl

/-- If the program of column `n0` never returns, except to stop the call, every complete run ends with the
run flag down. -/
theorem Drv.fails (D : Drv F L) (B : L → Prop) (n0 : Nat) (hn0 : n0 < D.No)
    (hBb : ∀ l, D.begin n0 = .ok l → B l) (hBs : ∀ l, B l → (D.step n0 l).Holds B) (m : Buf F) (nth : Nat)
    (h1 : 1 ≤ nth) (as : List Act) (s' : Sys F L) (hr : D.Run nth m as s') : s'.running = false := by
  obtain ⟨w0, hw0, ho1, ho2⟩ := owner_exists D.No nth n0 h1 hn0
  have step : ∀ (s : Sys F L) (w : Nat) (s1 : Sys F L), (s.running = true → Behind B n0 (s.ws w0)) →
      stepWorker D.task w s = .ok s1 → s1.running = true → Behind B n0 (s1.ws w0) := by
    intro s w s1 h hs
    unfold stepWorker at hs
    -- another worker
    have other : ∀ (t : Sys F L) (x : Worker L), s1 = t.setW w x → t.ws = s.ws →
        (s1.running = true → s.running = true) → (w = w0 → s1.running = true → Behind B n0 x) →
        s1.running = true → Behind B n0 (s1.ws w0) := by
      intro t x e1 e2 e3 e4 hrun
      rw [e1, setW_ws]
      by_cases hw : w0 = w
      · rw [if_pos hw]; exact e4 hw.symm hrun
      · rw [if_neg hw, e2]; exact h (e3 hrun)
    cases hpc : (s.ws w).pc with
    | done => simp only [hpc, Outcome.ok.injEq] at hs; subst hs; exact h
    | fetch =>
      simp only [hpc] at hs
      by_cases hlt : (s.ws w).n < (s.ws w).stop
      · rw [if_pos hlt] at hs
        cases hb : D.task.begin (s.ws w).n with
        | ub e => rw [hb] at hs; simp at hs
        | fuel => rw [hb] at hs; simp at hs
        | ok l =>
          rw [hb] at hs
          simp only [Outcome.bind, Outcome.ok.injEq] at hs
          refine other s _ hs.symm rfl (fun h => by rw [← hs] at h; exact h) fun hw hrun => ?_
          subst hw
          obtain ⟨a, b, _⟩ := h (by rw [← hs] at hrun; exact hrun)
          exact ⟨a, b, fun hn => hBb l (by have := hb; simp only at hn; rw [hn] at this; exact this)⟩
      · rw [if_neg hlt] at hs
        simp only [Outcome.ok.injEq] at hs
        refine other s _ hs.symm rfl (fun h => by rw [← hs] at h; exact h) fun hw hrun => ?_
        subst hw
        obtain ⟨a, b, _⟩ := h (by rw [← hs] at hrun; exact hrun)
        exact absurd (lt_of_le_of_lt a b) hlt
    | run l =>
      simp only [hpc] at hs
      have hB : w = w0 → s.running = true → (s.ws w).n = n0 → (D.step (s.ws w).n l).Holds B := by
        intro hw hrun hn
        subst hw
        have hb := (h hrun).2.2
        rw [hpc] at hb
        rw [hn]
        exact hBs l (hb hn)
      have hm : D.task.micro (s.ws w).n l s.mem =
          (D.step (s.ws w).n l).onBuf (D.base (s.ws w).n) s.mem := rfl
      rw [hm] at hs
      cases hst : D.step (s.ws w).n l with
      | tau l' =>
        rw [hst] at hs hB
        simp only [Eff.onBuf, Outcome.bind, Outcome.ok.injEq] at hs
        refine other _ _ hs.symm rfl (fun h => by rw [← hs] at h; exact h) fun hw hrun => ?_
        have hrun' : s.running = true := by rw [← hs] at hrun; exact hrun
        obtain ⟨a, b, _⟩ := h hrun'
        subst hw
        exact ⟨a, b, fun hn => hB rfl hrun' hn⟩
      | ret e =>
        rw [hst] at hs hB
        simp only [Eff.onBuf, Outcome.bind, Outcome.ok.injEq] at hs
        refine other _ _ hs.symm rfl (fun h => by rw [← hs] at h; exact h) fun hw hrun => ?_
        have hrun' : s.running = true := by rw [← hs] at hrun; exact hrun
        obtain ⟨a, b, _⟩ := h hrun'
        subst hw
        refine ⟨a, b, ?_⟩
        by_cases hn : (s.ws w).n = n0
        · exact .inr (hB rfl hrun' hn)
        · exact .inl (by show (s.ws w).n < n0; omega)
      | bad e => rw [hst] at hs; simp [Eff.onBuf] at hs
      | rd j k =>
        rw [hst] at hs hB
        simp only [Eff.onBuf] at hs
        cases hrd : s.mem.read ((D.base (s.ws w).n : Int) + j) with
        | ub e => rw [hrd] at hs; simp at hs
        | fuel => rw [hrd] at hs; simp at hs
        | ok x =>
          rw [hrd] at hs
          simp only [Outcome.bind, Outcome.ok.injEq] at hs
          refine other _ _ hs.symm rfl (fun h => by rw [← hs] at h; exact h) fun hw hrun => ?_
          have hrun' : s.running = true := by rw [← hs] at hrun; exact hrun
          obtain ⟨a, b, _⟩ := h hrun'
          subst hw
          exact ⟨a, b, fun hn => hB rfl hrun' hn x⟩
      | wr j x l' =>
        rw [hst] at hs hB
        simp only [Eff.onBuf] at hs
        cases hrd : s.mem.write ((D.base (s.ws w).n : Int) + j) x with
        | ub e => rw [hrd] at hs; simp at hs
        | fuel => rw [hrd] at hs; simp at hs
        | ok m' =>
          rw [hrd] at hs
          simp only [Outcome.bind, Outcome.ok.injEq] at hs
          refine other _ _ hs.symm rfl (fun h => by rw [← hs] at h; exact h) fun hw hrun => ?_
          have hrun' : s.running = true := by rw [← hs] at hrun; exact hrun
          obtain ⟨a, b, _⟩ := h hrun'
          subst hw
          exact ⟨a, b, fun hn => hB rfl hrun' hn⟩
    | signal e =>
      simp only [hpc, Outcome.ok.injEq] at hs
      have hrun1 : s1.running = true → s.running = true ∧ e ≠ .outOfBounds := by
        intro hrun
        rw [← hs] at hrun
        have : (if e = SIRError.outOfBounds then false else s.running) = true := hrun
        by_cases he : e = .outOfBounds
        · rw [if_pos he] at this; simp at this
        · rw [if_neg he] at this; exact ⟨this, he⟩
      refine other _ _ hs.symm rfl (fun h => (hrun1 h).1) fun hw hrun => ?_
      obtain ⟨hr1, hne⟩ := hrun1 hrun
      obtain ⟨a, b, c⟩ := h hr1
      subst hw
      rw [hpc] at c
      exact ⟨a, b, c.resolve_right hne⟩
    | check =>
      simp only [hpc] at hs
      by_cases hrn : s.running = true
      · simp only [hrn, if_true, Outcome.ok.injEq] at hs
        refine other s _ hs.symm rfl (fun _ => hrn) fun hw _ => ?_
        obtain ⟨a, b, c⟩ := h hrn
        subst hw
        rw [hpc] at c
        exact ⟨c, b, trivial⟩
      · simp only [hrn] at hs
        intro hrun
        exfalso
        apply hrn
        rw [← (by simpa using hs : _ = s1)] at hrun
        exact hrun
  have key : ∀ (as : List Act) (s s' : Sys F L), (s.running = true → Behind B n0 (s.ws w0)) →
      exec D.task as s = .ok s' → s'.running = true → Behind B n0 (s'.ws w0) := by
    intro as
    induction as with
    | nil => intro s s' hi he; simp only [exec, Outcome.ok.injEq] at he; exact he ▸ hi
    | cons a as ih =>
      intro s s' hi he
      simp only [exec] at he
      cases hst : stepSys D.task a s with
      | ub e => rw [hst] at he; simp at he
      | fuel => rw [hst] at he; simp at he
      | ok s1 =>
        rw [hst] at he
        refine ih s1 s' ?_ he
        cases a with
        | abort =>
          simp only [stepSys, Outcome.ok.injEq] at hst
          intro hrun
          rw [← hst] at hrun
          simp at hrun
        | step v => exact step s v s1 hi hst
  obtain ⟨he, hd⟩ := hr
  cases hrun : s'.running with
  | false => rfl
  | true =>
    exfalso
    have hinit : Behind B n0 ((initSys D.No nth m : Sys F L).ws w0) := by
      simp only [initSys]
      rw [if_pos hw0]
      exact ⟨ho1, ho2, trivial⟩
    have hh := (key as _ s' (fun _ => hinit) he hrun).2.2
    have := hd w0 hw0
    simp only [Sys.isDone] at this
    cases hpc : (s'.ws w0).pc with
    | done => rw [hpc] at hh; exact hh
    | _ => rw [hpc] at this; exact this

/-- If no program reports an out-of-bounds stop and nobody presses CTRL-C, the run flag stays up. -/
theorem Drv.stays_up (D : Drv F L) (C : L → Prop)
    (hCb : ∀ n l, n < D.No → D.begin n = .ok l → C l) (hCs : ∀ n l, C l → (D.step n l).NoStop C)
    (m : Buf F) (nth : Nat) (h1 : 1 ≤ nth) (as : List Act) (hab : Act.abort ∉ as) (s' : Sys F L)
    (he : exec D.task as (initSys D.No nth m) = .ok s') : s'.running = true := by
  let Good : Sys F L → Prop := fun s => s.running = true ∧ ∀ v, (s.ws v).stop ≤ D.No ∧
    match (s.ws v).pc with
    | .run l => C l
    | .signal e => e ≠ .outOfBounds
    | _ => True
  have step : ∀ (s : Sys F L) (w : Nat) (s1 : Sys F L), Good s → stepWorker D.task w s = .ok s1 → Good s1 := by
    intro s w s1 h hs
    unfold stepWorker at hs
    have other : ∀ (t : Sys F L) (x : Worker L), s1 = t.setW w x → t.ws = s.ws → t.running = true →
        x.stop = (s.ws w).stop → (match x.pc with
          | .run l => C l
          | .signal e => e ≠ .outOfBounds
          | _ => True) → Good s1 := by
      intro t x e1 e2 e3 e4 e5
      subst e1
      refine ⟨e3, fun v => ?_⟩
      rw [setW_ws]
      by_cases hv : v = w
      · rw [if_pos hv]; exact ⟨e4 ▸ (h.2 w).1, e5⟩
      · rw [if_neg hv, e2]; exact h.2 v
    have hcw := (h.2 w).2
    cases hpc : (s.ws w).pc with
    | done => simp only [hpc, Outcome.ok.injEq] at hs; subst hs; exact h
    | fetch =>
      simp only [hpc] at hs
      by_cases hlt : (s.ws w).n < (s.ws w).stop
      · rw [if_pos hlt] at hs
        cases hb : D.task.begin (s.ws w).n with
        | ub e => rw [hb] at hs; simp at hs
        | fuel => rw [hb] at hs; simp at hs
        | ok l =>
          rw [hb] at hs
          simp only [Outcome.bind, Outcome.ok.injEq] at hs
          exact other s _ hs.symm rfl h.1 rfl (hCb _ l (lt_of_lt_of_le hlt (h.2 w).1) hb)
      · rw [if_neg hlt] at hs
        simp only [Outcome.ok.injEq] at hs
        exact other s _ hs.symm rfl h.1 rfl trivial
    | run l =>
      rw [hpc] at hcw
      simp only [hpc] at hs
      have hC := hCs (s.ws w).n l hcw
      have hm : D.task.micro (s.ws w).n l s.mem =
          (D.step (s.ws w).n l).onBuf (D.base (s.ws w).n) s.mem := rfl
      rw [hm] at hs
      cases hst : D.step (s.ws w).n l with
      | tau l' =>
        rw [hst] at hs hC
        simp only [Eff.onBuf, Outcome.bind, Outcome.ok.injEq] at hs
        exact other _ _ hs.symm rfl h.1 rfl hC
      | ret e =>
        rw [hst] at hs hC
        simp only [Eff.onBuf, Outcome.bind, Outcome.ok.injEq] at hs
        exact other _ _ hs.symm rfl h.1 rfl hC
      | bad e => rw [hst] at hs; simp [Eff.onBuf] at hs
      | rd j k =>
        rw [hst] at hs hC
        simp only [Eff.onBuf] at hs
        cases hrd : s.mem.read ((D.base (s.ws w).n : Int) + j) with
        | ub e => rw [hrd] at hs; simp at hs
        | fuel => rw [hrd] at hs; simp at hs
        | ok x =>
          rw [hrd] at hs
          simp only [Outcome.bind, Outcome.ok.injEq] at hs
          exact other _ _ hs.symm rfl h.1 rfl (hC x)
      | wr j x l' =>
        rw [hst] at hs hC
        simp only [Eff.onBuf] at hs
        cases hrd : s.mem.write ((D.base (s.ws w).n : Int) + j) x with
        | ub e => rw [hrd] at hs; simp at hs
        | fuel => rw [hrd] at hs; simp at hs
        | ok m' =>
          rw [hrd] at hs
          simp only [Outcome.bind, Outcome.ok.injEq] at hs
          exact other _ _ hs.symm rfl h.1 rfl hC
    | signal e =>
      rw [hpc] at hcw
      simp only [hpc, Outcome.ok.injEq] at hs
      refine other _ _ hs.symm rfl ?_ rfl trivial
      show (if e = SIRError.outOfBounds then false else s.running) = true
      rw [if_neg hcw]; exact h.1
    | check =>
      simp only [hpc, h.1, if_true, Outcome.ok.injEq] at hs
      exact other s _ hs.symm rfl h.1 rfl trivial
  have key : ∀ (as : List Act) (s s' : Sys F L), Act.abort ∉ as → Good s →
      exec D.task as s = .ok s' → Good s' := by
    intro as
    induction as with
    | nil => intro s s' _ hi he; simp only [exec, Outcome.ok.injEq] at he; exact he ▸ hi
    | cons a as ih =>
      intro s s' ha hi he
      simp only [exec] at he
      cases hst : stepSys D.task a s with
      | ub e => rw [hst] at he; simp at he
      | fuel => rw [hst] at he; simp at he
      | ok s1 =>
        rw [hst] at he
        refine ih s1 s' (fun x => ha (List.mem_cons_of_mem _ x)) ?_ he
        cases a with
        | abort => exact absurd (List.mem_cons_self ..) ha
        | step v => exact step s v s1 hi hst
  refine (key as _ s' hab ⟨rfl, fun v => ?_⟩ he).1
  simp only [initSys]
  by_cases hv : v < nth
  · rw [if_pos hv]
    have := rangeStart_le D.No nth (v + 1) h1 (by omega)
    rw [← rangeStop_eq] at this
    exact ⟨this, trivial⟩
  · rw [if_neg hv]; exact ⟨Nat.zero_le _, trivial⟩

/-! ### A cell ahead whose arrival time is no index -/

/-- From this control point the loops of a kernel come to a cell whose arrival time cannot be converted
to an index, whatever is in the output matrix. -/
inductive Ahead (ty : IdxTy) (g : Sweep F) (sg : Bool) : KPC F → Prop
  | cell (ys xs) : le xs (g.row ys).xmax = true → ¬ ((g.row ys).pt xs).castOk ty → Ahead ty g sg (.inner ys xs)
  | across (ys xs) : le xs (g.row ys).xmax = true → Ahead ty g sg (.inner ys (xs +. g.dx)) →
      Ahead ty g sg (.inner ys xs)
  | down (ys xs) : le xs (g.row ys).xmax = false → sg = false → Ahead ty g sg (.outer (ys +. g.dy)) →
      Ahead ty g sg (.inner ys xs)
  | row (ys) : le ys g.ymax = true → Ahead ty g sg (.inner ys (g.row ys).x0) → Ahead ty g sg (.outer ys)
  | clear1 (i) : sg = true → Ahead ty g sg (.inner g.y0 (g.row g.y0).x0) → Ahead ty g sg (.clear i)
  | clear2 (i) : sg = false → Ahead ty g sg (.outer g.y0) → Ahead ty g sg (.clear i)
  | addRd (ys xs it ai) : Ahead ty g sg (.inner ys (xs +. g.dx)) → Ahead ty g sg (.addRd ys xs it ai)
  | addWr (ys xs it ai) : Ahead ty g sg (.inner ys (xs +. g.dx)) → Ahead ty g sg (.addWr ys xs it ai)
  | attRd (ys xs r it ai i) : Ahead ty g sg (.inner ys (xs +. g.dx)) →
      Ahead ty g sg (.attRd ys xs r it ai i)
  | attWr (ys xs r it ai i x) : Ahead ty g sg (.inner ys (xs +. g.dx)) →
      Ahead ty g sg (.attWr ys xs r it ai i x)

theorem castIdx_ub {ty : IdxTy} {p : Pt F} (h : ¬ p.castOk ty) :
    castIdx ty (rint p.arg) = .ub .cast := by
  unfold castIdx
  cases hr : rint p.arg with
  | none => rfl
  | some i =>
    simp only
    rw [if_neg]
    intro hf
    exact h ⟨i, hr, hf⟩

/-- A kernel with such a cell ahead does not return, except to stop the call. -/
theorem Ahead.step {nt : Nat} {ty : IdxTy} {level : ErrorLevel} {att : Option (AttResp F)}
    (l : KLoc F) (h : Ahead ty l.g l.single l.pc) :
    (kernStep nt ty level att l).Holds fun l => Ahead ty l.g l.single l.pc := by
  obtain ⟨g, sg, e, pc⟩ := l
  simp only at h
  cases h with
  | cell ys xs h1 h2 =>
    simp only [kernStep, h1, if_true, castIdx_ub h2]
    trivial
  | across ys xs h1 h2 =>
    simp only [kernStep, h1, if_true]
    cases castIdx ty (rint ((g.row ys).pt xs).arg) with
    | ub e => trivial
    | fuel => trivial
    | ok it =>
      simp only
      by_cases hin : it < (nt : Int) ∧ it ≥ 0
      · simp only [if_pos hin]
        cases att
        · exact .addRd _ _ _ _ h2
        · exact .attRd _ _ _ _ _ _ h2
      · simp only [if_neg hin]
        by_cases hl : oobErr level = .outOfBounds
        · simp only [if_pos hl]; exact hl
        · simp only [if_neg hl]; exact h2
  | down ys xs h1 h2 h3 =>
    subst h2
    simp only [kernStep, h1]
    exact h3
  | row ys h1 h2 =>
    simp only [kernStep, h1, if_true]
    exact h2
  | clear1 i h1 h2 =>
    subst h1
    simp only [kernStep]
    by_cases hi : i < nt
    · simp only [if_pos hi]; exact .clear1 _ rfl h2
    · simp only [if_neg hi]; exact h2
  | clear2 i h1 h2 =>
    subst h1
    simp only [kernStep]
    by_cases hi : i < nt
    · simp only [if_pos hi]; exact .clear2 _ rfl h2
    · simp only [if_neg hi]; exact h2
  | addRd ys xs it ai h => exact fun x => .addWr _ _ _ _ h
  | addWr ys xs it ai h => exact h
  | attRd ys xs r it ai i h =>
    simp only [kernStep]
    by_cases hi : i < nt
    · simp only [if_pos hi]; exact fun x => .attWr _ _ _ _ _ _ _ h
    · simp only [if_neg hi]; exact h
  | attWr ys xs r it ai i x h => exact .attRd _ _ _ _ _ _ h

/-- No kernel reports an out-of-bounds stop at the other levels. -/
theorem kernStep_nostop {nt : Nat} {ty : IdxTy} {level : ErrorLevel} {att : Option (AttResp F)}
    (hl : oobErr level ≠ .outOfBounds) (l : KLoc F) (h : l.err ≠ .outOfBounds) :
    (kernStep nt ty level att l).NoStop fun l => l.err ≠ .outOfBounds := by
  obtain ⟨g, sg, e, pc⟩ := l
  simp only at h
  cases pc with
  | clear i =>
    simp only [kernStep]
    by_cases hi : i < nt
    · simp only [if_pos hi]; exact h
    · simp only [if_neg hi]; cases sg <;> exact h
  | outer ys =>
    simp only [kernStep]
    by_cases hy : le ys g.ymax = true
    · simp only [if_pos hy]; exact h
    · simp only [if_neg hy]; exact h
  | inner ys xs =>
    simp only [kernStep]
    by_cases hx : le xs (g.row ys).xmax = true
    · simp only [if_pos hx]
      cases castIdx ty (rint ((g.row ys).pt xs).arg) with
      | ub e => trivial
      | fuel => trivial
      | ok it =>
        simp only
        by_cases hin : it < (nt : Int) ∧ it ≥ 0
        · simp only [if_pos hin]
          cases att <;> exact h
        · simp only [if_neg hin, if_neg hl]
          exact hl
    · simp only [if_neg hx]
      cases sg <;> exact h
  | addRd ys xs it ai => exact fun x => h
  | addWr ys xs it x => exact h
  | attRd ys xs r it ai i =>
    simp only [kernStep]
    by_cases hi : i < nt
    · simp only [if_pos hi]; exact fun x => h
    · simp only [if_neg hi]; exact h
  | attWr ys xs r it ai i x => exact h

theorem Ahead.of_row {ty : IdxTy} {g : Sweep F} {sg : Bool} {ys : F} {fuel : Nat} :
    ∀ {x0 : F} {xs : List F}, visits g.dx (g.row ys).xmax fuel x0 = some xs →
      (∃ x ∈ xs, ¬ ((g.row ys).pt x).castOk ty) → Ahead ty g sg (.inner ys x0) := by
  induction fuel with
  | zero => intro x0 xs h; simp [visits] at h
  | succ n ih =>
    intro x0 xs h hx
    unfold visits at h
    by_cases hle : le x0 (g.row ys).xmax = true
    · rw [if_pos hle] at h
      cases hv : visits g.dx (g.row ys).xmax n (x0 +. g.dx) with
      | none => rw [hv] at h; simp at h
      | some l =>
        rw [hv] at h
        simp only [Option.map_some, Option.some.injEq] at h
        subst h
        obtain ⟨x, hx, hb⟩ := hx
        rcases List.mem_cons.mp hx with rfl | hx
        · exact .cell _ _ hle hb
        · exact .across _ _ hle (ih hv ⟨x, hx, hb⟩)
    · rw [if_neg hle] at h
      simp only [Option.some.injEq] at h
      subst h
      obtain ⟨x, hx, _⟩ := hx
      simp at hx

/-- Past the end of a row. -/
theorem Ahead.past_row {ty : IdxTy} {g : Sweep F} {ys : F} {fuel : Nat} :
    ∀ {x0 : F} {xs : List F}, visits g.dx (g.row ys).xmax fuel x0 = some xs →
      Ahead ty g false (.outer (ys +. g.dy)) → Ahead ty g false (.inner ys x0) := by
  induction fuel with
  | zero => intro x0 xs h; simp [visits] at h
  | succ n ih =>
    intro x0 xs h ha
    unfold visits at h
    by_cases hle : le x0 (g.row ys).xmax = true
    · rw [if_pos hle] at h
      cases hv : visits g.dx (g.row ys).xmax n (x0 +. g.dx) with
      | none => rw [hv] at h; simp at h
      | some l => exact .across _ _ hle (ih hv ha)
    · exact .down _ _ (by simpa using hle) rfl ha

theorem Ahead.of_sweep {ty : IdxTy} {g : Sweep F} (fx : Nat) {fuel : Nat} :
    ∀ {y0 : F} {l : List F} {ps : List (Pt F)}, visits g.dy g.ymax fuel y0 = some l →
      rowsPoints g.row g.dx fx l = some ps → (∃ q ∈ ps, ¬ q.castOk ty) → Ahead ty g false (.outer y0) := by
  induction fuel with
  | zero => intro y0 l ps h; simp [visits] at h
  | succ n ih =>
    intro y0 l ps h hr hq
    unfold visits at h
    by_cases hle : le y0 g.ymax = true
    · rw [if_pos hle] at h
      cases hv : visits g.dy g.ymax n (y0 +. g.dy) with
      | none => rw [hv] at h; simp at h
      | some l' =>
        rw [hv] at h
        simp only [Option.map_some, Option.some.injEq] at h
        subst h
        simp only [rowsPoints] at hr
        cases h1 : (g.row y0).points g.dx fx with
        | none => rw [h1] at hr; simp at hr
        | some a =>
          cases h2 : rowsPoints g.row g.dx fx l' with
          | none => rw [h1, h2] at hr; simp at hr
          | some b =>
            rw [h1, h2] at hr
            simp only [Option.some.injEq] at hr
            subst hr
            unfold Row.points at h1
            cases h3 : visits g.dx (g.row y0).xmax fx (g.row y0).x0 with
            | none => rw [h3] at h1; simp at h1
            | some xs =>
              rw [h3] at h1
              simp only [Option.map_some, Option.some.injEq] at h1
              subst h1
              obtain ⟨q, hq, hb⟩ := hq
              refine .row _ hle ?_
              rcases List.mem_append.mp hq with hq | hq
              · obtain ⟨x, hx, rfl⟩ := List.mem_map.mp hq
                exact Ahead.of_row h3 ⟨x, hx, hb⟩
              · exact Ahead.past_row h3 (ih hv h2 ⟨q, hq, hb⟩)
    · rw [if_neg hle] at h
      simp only [Option.some.injEq] at h
      subst h
      simp only [rowsPoints, Option.some.injEq] at hr
      subst hr
      obtain ⟨q, hq, _⟩ := hq
      simp at hq

theorem Kern.ahead (k : Kern F) (ty : IdxTy) (p : Par F) (xo yo zo : F) (fuel : Nat) (ps : List (Pt F))
    (hps : k.points p xo yo zo fuel = some ps) (hq : ∃ q ∈ ps, ¬ q.castOk ty) :
    Ahead ty (k.entry p xo yo zo).g (k.entry p xo yo zo).single (k.entry p xo yo zo).pc := by
  have sweep : ∀ g : Sweep F, g.points fuel = some ps → Ahead ty g false (.outer g.y0) := by
    intro g hg
    unfold Sweep.points at hg
    cases hv : visits g.dy g.ymax fuel g.y0 with
    | none => rw [hv] at hg; simp at hg
    | some l => rw [hv] at hg; exact Ahead.of_sweep fuel hv hg hq
  cases k with
  | rect w a b => exact sweep _ hps
  | circ w R => exact sweep _ hps
  | cylind w a b Rc => exact sweep _ hps
  | rectF met f a b => exact .clear2 _ rfl (sweep _ hps)
  | circF met f R => exact .clear2 _ rfl (sweep _ hps)
  | sphere R Rc => exact .clear2 _ rfl (sweep _ hps)
  | line a =>
    refine .clear1 _ rfl ?_
    have h' : (lineRow p xo yo zo a).points p.dx fuel = some ps := hps
    unfold Row.points at h'
    cases hv : visits p.dx (lineRow p xo yo zo a).xmax fuel (lineRow p xo yo zo a).x0 with
    | none => rw [hv] at h'; simp at h'
    | some xs =>
      rw [hv] at h'
      simp only [Option.map_some, Option.some.injEq] at h'
      subst h'
      obtain ⟨q, hq, hb⟩ := hq
      obtain ⟨x, hx, rfl⟩ := List.mem_map.mp hq
      exact Ahead.of_row (g := (Kern.line a).geo p xo yo zo) (ys := lit 0) hv ⟨x, hx, hb⟩


/-! ### C85: a cell whose arrival time is no sample index -/

theorem begin_at (D : SirCall F) (m : Buf F) (hs : D.Sized m) (n : Nat) (hn : n < D.No) (l : KLoc F)
    (hb : D.drv.begin n = .ok l) :
    l = D.k.entry { D.p with delay := D.delayFor n } (D.obs n).1 (D.obs n).2.1 (D.obs n).2.2 := by
  simp only [SirCall.drv, D.inputs_eq m hs n hn, Outcome.map, Outcome.ok.injEq] at hb
  exact hb.symm

theorem nonstop_code {level : ErrorLevel} (hl : level = .ignore ∨ level = .warn ∨ level = .none) :
    oobErr level ≠ .outOfBounds := by
  rcases hl with h | h | h <;> rw [h] <;> simp [oobErr]

theorem sir_stays_up (D : SirCall F) (m : Buf F) (hl : D.level = .ignore ∨ D.level = .warn ∨ D.level = .none)
    (nth : Nat) (h1 : 1 ≤ nth) (as : List Act) (hab : Act.abort ∉ as) (s' : Sys F (KLoc F))
    (hr : D.Run nth m as s') : s'.running = true := by
  refine Drv.stays_up D.drv (fun l => l.err ≠ .outOfBounds) ?_ ?_ m nth h1 as hab s' hr.1
  · intro n l _ hb
    simp only [SirCall.drv] at hb
    cases hi : D.inputs n with
    | ub e => rw [hi] at hb; simp [Outcome.map] at hb
    | fuel => rw [hi] at hb; simp [Outcome.map] at hb
    | ok q =>
      rw [hi] at hb
      simp only [Outcome.map, Outcome.ok.injEq] at hb
      subst hb
      simp [Kern.entry]
  · intro n l hC
    exact kernStep_nostop (nonstop_code hl) l hC

/-- C85: if the sampled transducer has, for some observation point, a cell whose arrival time is no value of
the index type (not a number, infinite, too large; in MATLAB and Julia also: negative), no execution
that meets no undefined conversion returns a matrix.  With the levels 'ignore', 'warn' and 'none' no schedule is
such a complete run unless CTRL-C is pressed; at every level a complete run (stopped by another point, or by
CTRL-C) ends with an error. -/
theorem C85_bad_cell (D : SirCall F) (m : Buf F) (hs : D.Sized m) (n : Nat) (hn : n < D.No) (fuel : Nat)
    (ps : List (Pt F))
    (hps : D.k.points { D.p with delay := D.delayFor n } (D.obs n).1 (D.obs n).2.1 (D.obs n).2.2 fuel = some ps)
    (hq : ∃ q ∈ ps, ¬ q.castOk D.ty) (nth : Nat) (h1 : 1 ≤ nth) (as : List Act) (s' : Sys F (KLoc F))
    (hr : D.Run nth m as s') :
    s'.running = false ∧ (∀ err, wrapper s'.running err = .errOutOfBounds ∨ wrapper s'.running err = .errCtrlC) ∧
    (D.level = .ignore ∨ D.level = .warn ∨ D.level = .none → Act.abort ∈ as) := by
  have hf : s'.running = false := by
    refine Drv.fails D.drv (fun l => Ahead D.ty l.g l.single l.pc) n hn ?_ ?_ m nth h1 as s' hr
    · intro l hb
      rw [begin_at D m hs n hn l hb]
      exact Kern.ahead _ _ _ _ _ _ fuel ps hps hq
    · intro l h
      exact Ahead.step l h
  refine ⟨hf, fun err => ?_, fun hl => ?_⟩
  · rw [hf]
    unfold wrapper
    by_cases he : err = .outOfBounds <;> simp [he]
  · by_contra hab
    rw [sir_stays_up D m hl nth h1 as hab s' hr] at hf
    simp at hf

/-- What the serial function does with such a point: undefined. -/
theorem C85_serial (D : SirCall F) (m : Buf F) (hs : D.Sized m) (n : Nat) (hn : n < D.No) (fuel : Nat)
    (hl : D.level = .ignore ∨ D.level = .warn ∨ D.level = .none) (ps : List (Pt F))
    (hps : D.k.points { D.p with delay := D.delayFor n } (D.obs n).1 (D.obs n).2.1 (D.obs n).2.2 fuel = some ps)
    (hq : ∃ q ∈ ps, ¬ q.castOk D.ty) : D.serialAt n fuel m = .ub .cast := by
  have hb : n * D.nt + D.nt ≤ m.size := by
    rw [hs.out]
    calc n * D.nt + D.nt = (n + 1) * D.nt := by ring
      _ ≤ D.No * D.nt := Nat.mul_le_mul_right _ hn
  have hl' := nonstop_code hl
  have key : ∀ (ps : List (Pt F)) (c : (Nat → F) × SIRError), (∃ q ∈ ps, ¬ q.castOk D.ty) →
      runPts (colCtx D.nt D.ty D.level D.att) ps c = .ub .cast := by
    intro ps
    induction ps with
    | nil => intro c ⟨q, hq, _⟩; simp at hq
    | cons p ps ih =>
      intro c ⟨q, hq, hb⟩
      simp only [runPts]
      by_cases hp : p.castOk D.ty
      · have hq' : ∃ q ∈ ps, ¬ q.castOk D.ty := by
          rcases List.mem_cons.mp hq with rfl | hq
          · exact absurd hp hb
          · exact ⟨q, hq, hb⟩
        obtain ⟨i, hi1, hi2⟩ := hp
        have hc : castIdx (colCtx D.nt D.ty D.level D.att).ty (rint p.arg) = .ok i := by
          show castIdx D.ty (rint p.arg) = _
          rw [hi1]; simp only [castIdx, hi2, if_true]
        unfold deposit
        rw [hc, Outcome.ok_bind]
        by_cases hin : i < ((colCtx D.nt D.ty D.level D.att).nt : Int) ∧ i ≥ 0
        · rw [if_pos hin]; exact ih _ hq'
        · have hl2 : ¬ oobErr (colCtx D.nt D.ty D.level D.att).level = .outOfBounds := hl'
          rw [if_neg hin]
          simp only [if_neg hl2]
          exact ih _ hq'
      · unfold deposit
        rw [show (colCtx D.nt D.ty D.level D.att).ty = D.ty from rfl, castIdx_ub hp]
        rfl
  unfold SirCall.serialAt
  rw [D.inputs_eq m hs n hn]
  simp only [Outcome.bind]
  rw [Kern.serial_eq _ _ _ _ _ _ _ _ _ _ _ _ hb, Kern.onCol_points _ _ _ _ _ _ _ _ _ _ _ ps hps, key ps _ hq]
  rfl

/-- When is an arrival time no value of the index type: it is not a number, infinite, or too large; and in
MATLAB and Julia, whose index type is unsigned, every negative one. -/
theorem C85_cast (q : Pt F) :
    (rint q.arg = none → ∀ ty, ¬ q.castOk ty) ∧
    (∀ i, rint q.arg = some i →
      (q.castOk .unsigned ↔ 0 ≤ i ∧ i < 2 ^ 64) ∧ (q.castOk .signed ↔ -2 ^ 63 ≤ i ∧ i < 2 ^ 63)) := by
  refine ⟨fun h ty => ?_, fun i hi => ⟨?_, ?_⟩⟩
  · rintro ⟨i, hi, _⟩; rw [h] at hi; simp at hi
  · constructor
    · rintro ⟨j, hj, hf⟩
      rw [hi] at hj
      simp only [Option.some.injEq] at hj
      subst hj
      simpa [IdxTy.fits] using hf
    · intro h; exact ⟨i, hi, by simpa [IdxTy.fits] using h⟩
  · constructor
    · rintro ⟨j, hj, hf⟩
      rw [hi] at hj
      simp only [Option.some.injEq] at hj
      subst hj
      simpa [IdxTy.fits] using hf
    · intro h; exact ⟨i, hi, by simpa [IdxTy.fits] using h⟩


/-! ### C85: NaN and infinite arguments -/

/-- Arguments that make every arrival time a NaN or infinite: a coordinate, the delay, the focusing distance
or the radius of curvature that is NaN or infinite; a sound speed or sampling interval that is NaN or zero. -/
def SpecialArg (nan bad : F → Prop) (k : Kern F) (p : Par F) (xo yo zo : F) : Prop :=
  bad xo ∨ bad yo ∨ bad zo ∨ bad p.delay ∨ nan p.cp ∨ p.cp = lit 0 ∨ nan p.dt ∨ p.dt = lit 0 ∨
  match k with
  | .rectF met f _ _ => (met = .x ∨ met = .y ∨ met = .xy ∨ met = .x_y) ∧ bad f
  | .circF met f _ => (met = .x ∨ met = .y ∨ met = .xy ∨ met = .x_y) ∧ bad f
  | .sphere _ Rc => bad Rc
  | _ => False

/-- The transducer is sampled at all: the first cell is inside. -/
def Kern.FirstCell (k : Kern F) (p : Par F) : Prop :=
  let box (a b : F) : Prop :=
    le (neg b /. lit 2 +. p.dy /. lit 2) (b /. lit 2) = true ∧
    le (neg a /. lit 2 +. p.dx /. lit 2) (a /. lit 2) = true
  let disc (R : F) : Prop :=
    let y0 := neg R +. p.dy /. lit 2
    let half := sqrt (R *. R -. y0 *. y0)
    le y0 R = true ∧ le (neg half +. p.dx /. lit 2) half = true
  match k with
  | .rect _ a b => box a b
  | .rectF _ _ a b => box a b
  | .circ _ R => disc R
  | .circF _ _ R => disc R
  | .sphere R _ => disc R
  | .line a => le (neg a /. lit 2 +. p.dx /. lit 2) (a /. lit 2) = true
  | .cylind _ a b Rc =>
    let R := Arith.abs Rc
    let phi := lit 2 *. atan ((b /. lit 2) /.
      (R -. (R -. sqrt (Rc *. Rc -. (b /. lit 2) *. (b /. lit 2)))))
    le (neg phi /. lit 2 +. asin (p.dy /. R) /. lit 2) (phi /. lit 2) = true ∧
    le (neg a /. lit 2 +. p.dx /. lit 2) (a /. lit 2) = true

section Laws
variable {nan bad : F → Prop} (hL : IeeeLaws nan bad)
include hL

theorem IeeeLaws.dist3_bad {rx ry rz : F} (h : bad rx ∨ bad ry ∨ bad rz) : bad (dist3 rx ry rz) := by
  unfold dist3
  refine hL.sqrt_bad _ ?_
  rcases h with h | h | h
  · exact hL.add_bad _ _ (.inl (hL.add_bad _ _ (.inl (hL.mul_bad _ _ (.inl h)))))
  · exact hL.add_bad _ _ (.inl (hL.add_bad _ _ (.inr (hL.mul_bad _ _ (.inl h)))))
  · exact hL.add_bad _ _ (.inr (hL.mul_bad _ _ (.inl h)))

/-- The quotient by a NaN or zero. -/
theorem IeeeLaws.quot {a b : F} (h : bad a ∨ nan b ∨ b = lit 0) : bad (a /. b) := by
  rcases h with h | h | h
  · exact hL.div_bad _ _ h
  · exact hL.nan_bad _ (hL.div_nan _ _ (.inr h))
  · rw [h]; exact hL.div_zero _

theorem IeeeLaws.arrival_bad {r cp delay dt : F}
    (h : bad r ∨ bad delay ∨ nan cp ∨ cp = lit 0 ∨ nan dt ∨ dt = lit 0) : bad (arrival r cp delay dt) := by
  unfold arrival
  rcases h with h | h | h | h | h | h
  · exact hL.quot (.inl (hL.sub_bad _ _ (.inl (hL.quot (.inl (hL.mul_bad _ _ (.inl h)))))))
  · exact hL.quot (.inl (hL.sub_bad _ _ (.inr h)))
  · exact hL.quot (.inl (hL.sub_bad _ _ (.inl (hL.quot (.inr (.inl h))))))
  · exact hL.quot (.inl (hL.sub_bad _ _ (.inl (hL.quot (.inr (.inr h))))))
  · exact hL.quot (.inr (.inl h))
  · exact hL.quot (.inr (.inr h))

theorem IeeeLaws.arrivalFoc_bad {r cp delay foc dt : F}
    (h : bad r ∨ bad delay ∨ nan cp ∨ cp = lit 0 ∨ nan dt ∨ dt = lit 0 ∨ bad foc) :
    bad (arrivalFoc r cp delay foc dt) := by
  unfold arrivalFoc
  rcases h with h | h | h | h | h | h | h
  · exact hL.quot (.inl (hL.add_bad _ _ (.inl (hL.sub_bad _ _ (.inl (hL.quot (.inl (hL.mul_bad _ _ (.inl h)))))))))
  · exact hL.quot (.inl (hL.add_bad _ _ (.inl (hL.sub_bad _ _ (.inr h)))))
  · exact hL.quot (.inl (hL.add_bad _ _ (.inl (hL.sub_bad _ _ (.inl (hL.quot (.inr (.inl h))))))))
  · exact hL.quot (.inl (hL.add_bad _ _ (.inl (hL.sub_bad _ _ (.inl (hL.quot (.inr (.inr h))))))))
  · exact hL.quot (.inr (.inl h))
  · exact hL.quot (.inr (.inr h))
  · exact hL.quot (.inl (hL.add_bad _ _ (.inr h)))

theorem IeeeLaws.not_castOk {q : Pt F} (h : bad q.arg) (ty : IdxTy) : ¬ q.castOk ty :=
  (C85_cast q).1 (hL.rint_bad _ h) ty

/-- `focal` NaN or infinite. -/
theorem IeeeLaws.foc {u v f cp : F} (hf : bad f) :
    bad ((sqrt (u +. f *. f) -. v) *. lit 1000 /. cp) :=
  hL.div_bad _ _ (hL.mul_bad _ _ (.inl (hL.sub_bad _ _ (.inl (hL.sqrt_bad _
    (hL.add_bad _ _ (.inr (hL.mul_bad _ _ (.inl hf)))))))))

/-- With such an argument every cell's arrival time is a NaN or infinite. -/
theorem IeeeLaws.cells {k : Kern F} {p : Par F} {xo yo zo : F} (h : SpecialArg nan bad k p xo yo zo)
    (ys xs : F) : bad (((k.geo p xo yo zo).row ys).pt xs).arg := by
  -- the distance to a point of the surface
  have hd : ∀ y z : F, (bad xo → bad (dist3 (xo -. xs) y z)) := fun y z h =>
    hL.dist3_bad (.inl (hL.sub_bad _ _ (.inl h)))
  have plain : ∀ r : F, (bad xo ∨ bad yo ∨ bad zo → bad r) → ∀ Q : Prop,
      (bad xo ∨ bad yo ∨ bad zo ∨ bad p.delay ∨ nan p.cp ∨ p.cp = lit 0 ∨ nan p.dt ∨ p.dt = lit 0 ∨ Q) →
      (Q → bad r) → bad (arrival r p.cp p.delay p.dt) := by
    intro r hr Q h hQ
    apply hL.arrival_bad
    rcases h with h | h | h | h | h | h | h | h | h
    · exact .inl (hr (.inl h))
    · exact .inl (hr (.inr (.inl h)))
    · exact .inl (hr (.inr (.inr h)))
    · exact .inr (.inl h)
    · exact .inr (.inr (.inl h))
    · exact .inr (.inr (.inr (.inl h)))
    · exact .inr (.inr (.inr (.inr (.inl h))))
    · exact .inr (.inr (.inr (.inr (.inr h))))
    · exact .inl (hQ h)
  have focd : ∀ r foc : F, (bad xo ∨ bad yo ∨ bad zo → bad r) → ∀ Q : Prop,
      (bad xo ∨ bad yo ∨ bad zo ∨ bad p.delay ∨ nan p.cp ∨ p.cp = lit 0 ∨ nan p.dt ∨ p.dt = lit 0 ∨ Q) →
      (Q → bad foc) → bad (arrivalFoc r p.cp p.delay foc p.dt) := by
    intro r foc hr Q h hQ
    apply hL.arrivalFoc_bad
    rcases h with h | h | h | h | h | h | h | h | h
    · exact .inl (hr (.inl h))
    · exact .inl (hr (.inr (.inl h)))
    · exact .inl (hr (.inr (.inr h)))
    · exact .inr (.inl h)
    · exact .inr (.inr (.inl h))
    · exact .inr (.inr (.inr (.inl h)))
    · exact .inr (.inr (.inr (.inr (.inl h))))
    · exact .inr (.inr (.inr (.inr (.inr (.inl h)))))
    · exact .inr (.inr (.inr (.inr (.inr (.inr (hQ h))))))
  have flat : ∀ y z : F, (bad yo → bad y) → (bad zo → bad z) →
      (bad xo ∨ bad yo ∨ bad zo → bad (dist3 (xo -. xs) y z)) := by
    intro y z hy hz h
    rcases h with h | h | h
    · exact hd _ _ h
    · exact hL.dist3_bad (.inr (.inl (hy h)))
    · exact hL.dist3_bad (.inr (.inr (hz h)))
  have subl : ∀ a b : F, bad a → bad (a -. b) := fun a b h => hL.sub_bad _ _ (.inl h)
  have addl : ∀ a b : F, bad a → bad (a +. b) := fun a b h => hL.add_bad _ _ (.inl h)
  cases k with
  | rect w a b => exact plain _ (flat _ _ (subl _ _) id) _ h (fun q => q.elim)
  | circ w R => exact plain _ (flat _ _ (subl _ _) id) _ h (fun q => q.elim)
  | line a => exact plain _ (flat _ _ id id) _ h (fun q => q.elim)
  | cylind w a b Rc =>
    refine plain _ ?_ _ h (fun q => q.elim)
    split
    · exact flat _ _ (subl _ _) (subl _ _)
    · exact flat _ _ (subl _ _) (addl _ _)
  | sphere R Rc =>
    refine plain _ ?_ _ h fun hRc => ?_
    · split
      · exact flat _ _ (subl _ _) (subl _ _)
      · exact flat _ _ (subl _ _) (addl _ _)
    · split
      · exact hL.dist3_bad (.inr (.inr (hL.sub_bad _ _ (.inr (hL.sub_bad _ _ (.inl hRc))))))
      · exact hL.dist3_bad (.inr (.inr (hL.add_bad _ _ (.inr (hL.sub_bad _ _ (.inl (hL.neg_bad _ hRc)))))))
  | rectF met f a b =>
    refine focd _ _ (flat _ _ (subl _ _) id) _ h fun ⟨hm, hf⟩ => ?_
    rcases hm with rfl | rfl | rfl | rfl <;> exact hL.foc hf
  | circF met f R =>
    refine focd _ _ (flat _ _ (subl _ _) id) _ h fun ⟨hm, hf⟩ => ?_
    rcases hm with rfl | rfl | rfl | rfl <;> exact hL.foc hf

end Laws

/-- Inside a kernel before its first cell, which has a useless arrival time. -/
structure KLoc.Doomed (ty : IdxTy) (l : KLoc F) : Prop where
  cells : ¬ ((l.g.row l.g.y0).pt (l.g.row l.g.y0).x0).castOk ty
  row : l.single = false → le l.g.y0 l.g.ymax = true
  cell : le (l.g.row l.g.y0).x0 (l.g.row l.g.y0).xmax = true
  pc : (∃ i, l.pc = .clear i) ∨ (l.single = false ∧ l.pc = .outer l.g.y0) ∨
    l.pc = .inner l.g.y0 (l.g.row l.g.y0).x0

theorem KLoc.doomed_step {nt : Nat} {ty : IdxTy} {level : ErrorLevel} {att : Option (AttResp F)} (l : KLoc F)
    (h : l.Doomed ty) : (kernStep nt ty level att l).Keeps (KLoc.Doomed ty) := by
  obtain ⟨g, sg, e, pc⟩ := l
  obtain ⟨h1, h2, h3, h4⟩ := h
  simp only at h1 h2 h3 h4
  rcases h4 with ⟨i, rfl⟩ | ⟨rfl, rfl⟩ | rfl
  · simp only [kernStep]
    by_cases hi : i < nt
    · simp only [if_pos hi]; exact ⟨h1, h2, h3, .inl ⟨_, rfl⟩⟩
    · simp only [if_neg hi]
      cases sg
      · exact ⟨h1, h2, h3, .inr (.inl ⟨rfl, rfl⟩)⟩
      · exact ⟨h1, h2, h3, .inr (.inr rfl)⟩
  · simp only [kernStep, h2 rfl, if_true]
    exact ⟨h1, h2, h3, .inr (.inr rfl)⟩
  · simp only [kernStep, h3, if_true, castIdx_ub h1]
    trivial

theorem Kern.doomed_of (k : Kern F) (p : Par F) (xo yo zo : F) (ty : IdxTy)
    (h : ¬ (((k.geo p xo yo zo).row (k.geo p xo yo zo).y0).pt
      ((k.geo p xo yo zo).row (k.geo p xo yo zo).y0).x0).castOk ty) (hc : k.FirstCell p) :
    (k.entry p xo yo zo).Doomed ty := by
  refine ⟨h, fun hs => ?_, ?_, ?_⟩
  · cases k with
    | line a => simp [Kern.entry, Kern.single] at hs
    | rect w a b => exact hc.1
    | circ w R => exact hc.1
    | cylind w a b Rc => exact hc.1
    | sphere R Rc => exact hc.1
    | rectF met f a b => exact hc.1
    | circF met f R => exact hc.1
  · cases k with
    | line a => exact hc
    | rect w a b => exact hc.2
    | circ w R => exact hc.2
    | cylind w a b Rc => exact hc.2
    | sphere R Rc => exact hc.2
    | rectF met f a b => exact hc.2
    | circF met f R => exact hc.2
  · cases k with
    | line a => exact .inl ⟨_, rfl⟩
    | rect w a b => exact .inr (.inl ⟨rfl, rfl⟩)
    | circ w R => exact .inr (.inl ⟨rfl, rfl⟩)
    | cylind w a b Rc => exact .inr (.inl ⟨rfl, rfl⟩)
    | sphere R Rc => exact .inl ⟨_, rfl⟩
    | rectF met f a b => exact .inl ⟨_, rfl⟩
    | circF met f R => exact .inl ⟨_, rfl⟩

theorem Kern.doomed {nan bad : F → Prop} (hL : IeeeLaws nan bad) (k : Kern F) (p : Par F) (xo yo zo : F)
    (ty : IdxTy) (h : SpecialArg nan bad k p xo yo zo) (hc : k.FirstCell p) :
    (k.entry p xo yo zo).Doomed ty :=
  k.doomed_of p xo yo zo ty (hL.not_castOk (hL.cells h _ _) ty) hc

omit [Arith F] in
theorem Eff.keeps_holds {I : L → Prop} {e : Eff F L} (h : e.Keeps I) : e.Holds I := by
  cases e with
  | ret e => exact h.elim
  | _ => exact h

/-- C85: if one of the arguments of a call with a transducer that is sampled at all is NaN or infinite, or
the sound speed or sampling interval is zero (`SpecialArg`), no defined execution returns a
matrix.  If it is an argument all points share, or so for every point, no worker that has a point to compute
ends in a defined execution (it meets an undefined conversion first), at any error level and even if CTRL-C is
pressed; if it belongs to some point only, complete runs end with an error, and with the levels 'ignore', 'warn'
and 'none' there is none without CTRL-C. -/
theorem C85_special {nan bad : F → Prop} (hL : IeeeLaws nan bad) (D : SirCall F) (m : Buf F) (hs : D.Sized m)
    (hc : D.k.FirstCell D.p) (nth : Nat) (h1 : 1 ≤ nth) (as : List Act) (s' : Sys F (KLoc F)) :
    ((∀ n < D.No, SpecialArg nan bad D.k { D.p with delay := D.delayFor n } (D.obs n).1 (D.obs n).2.1
        (D.obs n).2.2) → exec D.task as (initSys D.No nth m) = .ok s' →
      ∀ w, w < nth → rangeStart D.No nth w < rangeStop D.No nth w → ¬ s'.isDone w) ∧
    ((∃ n < D.No, SpecialArg nan bad D.k { D.p with delay := D.delayFor n } (D.obs n).1 (D.obs n).2.1
        (D.obs n).2.2) → D.Run nth m as s' →
      s'.running = false ∧ (D.level = .ignore ∨ D.level = .warn ∨ D.level = .none → Act.abort ∈ as)) := by
  have hc' : ∀ n, D.k.FirstCell { D.p with delay := D.delayFor n } := by
    intro n
    cases hk : D.k <;> rw [hk] at hc <;> exact hc
  refine ⟨fun hsp he w hw hr => ?_, fun ⟨n, hn, hsp⟩ hr => ?_⟩
  · refine Drv.never_ends D.drv (KLoc.Doomed D.ty) ?_ ?_ nth m w hw hr as s' he
    · intro n l hn hb
      rw [begin_at D m hs n hn l hb]
      exact Kern.doomed hL _ _ _ _ _ _ (hsp n hn) (hc' n)
    · intro n l h
      exact KLoc.doomed_step l h
  · have hf : s'.running = false := by
      refine Drv.fails D.drv (KLoc.Doomed D.ty) n hn ?_ ?_ m nth h1 as s' hr
      · intro l hb
        rw [begin_at D m hs n hn l hb]
        exact Kern.doomed hL _ _ _ _ _ _ hsp (hc' n)
      · intro l h
        exact Eff.keeps_holds (KLoc.doomed_step l h)
    refine ⟨hf, fun hl => ?_⟩
    by_contra hab
    rw [sir_stays_up D m hl nth h1 as hab s' hr] at hf
    simp at hf

/-- C85: a spherical transducer whose first cell lies beyond its radius of curvature (`R > |Rcurv|` and a fine
sampling): in no defined execution does the call return, at any error level and even if CTRL-C is pressed. -/
theorem C85_sphere_beyond {nan bad : F → Prop} (hL : IeeeLaws nan bad) (D : SirCall F) (m : Buf F)
    (hs : D.Sized m) (R Rc y0 x0 half : F) (hk : D.k = .sphere R Rc) (hy : y0 = neg R +. D.p.dy /. lit 2)
    (hh : half = sqrt (R *. R -. y0 *. y0)) (hx : x0 = neg half +. D.p.dx /. lit 2)
    (hc : le y0 R = true ∧ le x0 half = true)
    (hbeyond : Arith.lt (Rc *. Rc -. x0 *. x0 -. y0 *. y0) (lit 0) = true)
    (nth : Nat) (as : List Act) (s' : Sys F (KLoc F)) (he : exec D.task as (initSys D.No nth m) = .ok s')
    (w : Nat) (hw : w < nth) (hr : rangeStart D.No nth w < rangeStop D.No nth w) : ¬ s'.isDone w := by
  subst hx hh hy
  refine Drv.never_ends D.drv (KLoc.Doomed D.ty) ?_ ?_ nth m w hw hr as s' he
  · intro n l hn hb
    rw [begin_at D m hs n hn l hb, hk]
    refine Kern.doomed_of _ _ _ _ _ _ (hL.not_castOk (hL.arrival_bad (.inl ?_)) _) hc
    have hs := hL.nan_bad _ (hL.sqrt_neg _ hbeyond)
    show bad (if le (lit 0) Rc = true then sphereF _ _ Rc _ _ _ else sphereD _ _ (neg Rc) _ _ _)
    split
    · exact hL.dist3_bad (.inr (.inr (hL.sub_bad _ _ (.inr (hL.sub_bad _ _ (.inr hs))))))
    · unfold sphereD
      rw [hL.neg_sq]
      exact hL.dist3_bad (.inr (.inr (hL.add_bad _ _ (.inr (hL.sub_bad _ _ (.inr hs))))))
  · intro n l h
    exact KLoc.doomed_step l h

/-! ### C85 for arrays -/

theorem arr_begin_at (D : ArrCall F) (m : Buf F) (hs : D.Sized m) (n : Nat) (hn : n < D.No) (l : ALoc F)
    (hb : D.drv.begin n = .ok l) : l = D.entry (D.obs n).1 (D.obs n).2.1 (D.obs n).2.2 (D.delayFor n) := by
  simp only [ArrCall.drv, D.inputs_eq m hs n hn, Outcome.map, Outcome.ok.injEq] at hb
  exact hb.symm

theorem arr_stays_up (D : ArrCall F) (m : Buf F) (hl : D.level = .ignore ∨ D.level = .warn ∨ D.level = .none)
    (nth : Nat) (h1 : 1 ≤ nth) (as : List Act) (hab : Act.abort ∉ as) (s' : Sys F (ALoc F))
    (hr : D.drv.Run nth m as s') : s'.running = true := by
  let C : ALoc F → Prop := fun l => match l.pc with
    | .next _ _ e => e ≠ .outOfBounds
    | .run _ _ k => k.err ≠ .outOfBounds
    | _ => True
  refine Drv.stays_up D.drv C ?_ ?_ m nth h1 as hab s' hr.1
  · intro n l _ hb
    simp only [ArrCall.drv] at hb
    cases hi : D.inputs n with
    | ub e => rw [hi] at hb; simp [Outcome.map] at hb
    | fuel => rw [hi] at hb; simp [Outcome.map] at hb
    | ok q =>
      rw [hi] at hb
      simp only [Outcome.map, Outcome.ok.injEq] at hb
      subst hb
      simp only [ArrCall.entry, C]
      cases D.K.clears D.att <;> trivial
  · intro n l hC
    obtain ⟨xo, yo, zo, d, pc⟩ := l
    show (D.step _).NoStop _
    cases pc with
    | clear i =>
      simp only [ArrCall.step]
      by_cases hi : i < D.nt
      · rw [if_pos hi]; trivial
      · rw [if_neg hi]; trivial
    | dims =>
      simp only [ArrCall.step]
      cases maxDimArr D.A.G D.A.num with
      | ok d => exact (by simp : SIRError.none ≠ .outOfBounds)
      | ub e => trivial
      | fuel => trivial
    | next d n err =>
      simp only [ArrCall.step]
      by_cases hn : n < D.A.num
      · rw [if_pos hn]
        cases D.A.elem d D.p.cp n with
        | ub e => trivial
        | fuel => trivial
        | ok e =>
          show SIRError.none ≠ .outOfBounds
          simp
      · rw [if_neg hn]; exact hC
    | run d n k =>
      have h1 := kernStep_nostop (nt := D.nt) (ty := D.ty) (att := D.att) (nonstop_code hl) k hC
      simp only [ArrCall.step]
      cases hs : kernStep D.nt D.ty D.level D.att k <;> rw [hs] at h1
      · exact h1
      · have h2 : _ ≠ SIRError.outOfBounds := h1
        simp only [if_neg h2]
        exact h2
      · trivial
      · exact h1
      · exact h1

/-- C85 for arrays: an element that has, for some observation point, a cell whose arrival time is no value of
the index type. -/
theorem C85_array_bad_cell (D : ArrCall F) (m : Buf F) (hs : D.Sized m) (n : Nat) (hn : n < D.No)
    (d : Dims F) (hd : maxDimArr D.A.G D.A.num = .ok d) (i : Nat) (hi : i < D.A.num) (e : Elem F)
    (he : D.A.elem d D.p.cp i = .ok e) (fuel : Nat) (ps : List (Pt F))
    (hps : (D.K.kern e.weight).points { D.p with delay := D.delayFor n -. e.foc -. e.steer }
      ((D.obs n).1 -. e.gx) ((D.obs n).2.1 -. e.gy) ((D.obs n).2.2 -. e.gz) fuel = some ps)
    (hq : ∃ q ∈ ps, ¬ q.castOk D.ty) (nth : Nat) (h1 : 1 ≤ nth) (as : List Act) (s' : Sys F (ALoc F))
    (hr : D.drv.Run nth m as s') :
    s'.running = false ∧ (D.level = .ignore ∨ D.level = .warn ∨ D.level = .none → Act.abort ∈ as) := by
  have hf : s'.running = false := by
    let B : ALoc F → Prop := fun l => (l.xo = (D.obs n).1 ∧ l.yo = (D.obs n).2.1 ∧ l.zo = (D.obs n).2.2 ∧
        l.delay = D.delayFor n) ∧ match l.pc with
      | .next d' k _ => d' = d ∧ k ≤ i
      | .run d' k x => d' = d ∧ (k < i ∨ k = i ∧ Ahead D.ty x.g x.single x.pc)
      | _ => True
    refine Drv.fails D.drv B n hn ?_ ?_ m nth h1 as s' hr
    · intro l hb
      rw [arr_begin_at D m hs n hn l hb]
      refine ⟨⟨rfl, rfl, rfl, rfl⟩, ?_⟩
      simp only [ArrCall.entry]
      cases D.K.clears D.att <;> trivial
    · rintro ⟨xo, yo, zo, dl, pc⟩ ⟨⟨rfl, rfl, rfl, rfl⟩, hB⟩
      show (D.step _).Holds _
      cases pc with
      | clear j =>
        simp only [ArrCall.step]
        by_cases hj : j < D.nt
        · rw [if_pos hj]; exact ⟨⟨rfl, rfl, rfl, rfl⟩, trivial⟩
        · rw [if_neg hj]; exact ⟨⟨rfl, rfl, rfl, rfl⟩, trivial⟩
      | dims =>
        simp only [ArrCall.step, hd]
        exact ⟨⟨rfl, rfl, rfl, rfl⟩, rfl, Nat.zero_le _⟩
      | next d' k err =>
        obtain ⟨rfl, hk⟩ := (hB : d' = d ∧ k ≤ i)
        simp only [ArrCall.step]
        rw [if_pos (by omega)]
        by_cases hki : k = i
        · subst hki
          rw [he]
          exact ⟨⟨rfl, rfl, rfl, rfl⟩, rfl, .inr ⟨rfl, Kern.ahead _ _ _ _ _ _ fuel ps hps hq⟩⟩
        · cases D.A.elem d' D.p.cp k with
          | ub e => trivial
          | fuel => trivial
          | ok e' => exact ⟨⟨rfl, rfl, rfl, rfl⟩, rfl, .inl (by omega)⟩
      | run d' k x =>
        obtain ⟨rfl, hk⟩ := (hB : d' = d ∧ (k < i ∨ k = i ∧ Ahead D.ty x.g x.single x.pc))
        simp only [ArrCall.step]
        rcases hk with hk | ⟨hk, hA⟩
        · cases hs : kernStep D.nt D.ty D.level D.att x with
          | tau x' => exact ⟨⟨rfl, rfl, rfl, rfl⟩, rfl, .inl hk⟩
          | ret c =>
            by_cases hc : c = .outOfBounds
            · simp only [if_pos hc]; exact hc
            · simp only [if_neg hc]; exact ⟨⟨rfl, rfl, rfl, rfl⟩, rfl, hk⟩
          | bad c => trivial
          | rd j f => exact fun y => ⟨⟨rfl, rfl, rfl, rfl⟩, rfl, .inl hk⟩
          | wr j y x' => exact ⟨⟨rfl, rfl, rfl, rfl⟩, rfl, .inl hk⟩
        · have h2 := Ahead.step (nt := D.nt) (level := D.level) (att := D.att) x hA
          cases hs : kernStep D.nt D.ty D.level D.att x with
          | tau x' => rw [hs] at h2; exact ⟨⟨rfl, rfl, rfl, rfl⟩, rfl, .inr ⟨hk, h2⟩⟩
          | ret c =>
            rw [hs] at h2
            have hc : c = .outOfBounds := h2
            simp only [if_pos hc]; exact hc
          | bad c => trivial
          | rd j f => rw [hs] at h2; exact fun y => ⟨⟨rfl, rfl, rfl, rfl⟩, rfl, .inr ⟨hk, h2 y⟩⟩
          | wr j y x' => rw [hs] at h2; exact ⟨⟨rfl, rfl, rfl, rfl⟩, rfl, .inr ⟨hk, h2⟩⟩
  refine ⟨hf, fun hl => ?_⟩
  by_contra hab
  rw [arr_stays_up D m hl nth h1 as hab s' hr] at hf
  simp at hf

/-- C85 for arrays: if a coordinate of an observation point or its delay, or a coordinate of the first element,
or its user defined focusing delay, is NaN or infinite, or the sound speed or sampling interval is NaN or
zero, and the element is sampled at all: no defined execution returns a matrix. -/
theorem C85_array_special {nan bad : F → Prop} (hL : IeeeLaws nan bad) (D : ArrCall F) (m : Buf F)
    (hs : D.Sized m) (hA : D.A.Sized) (hc : (D.K.kern (lit 1)).FirstCell D.p) (n : Nat) (hn : n < D.No)
    (hsp : bad (D.obs n).1 ∨ bad (D.obs n).2.1 ∨ bad (D.obs n).2.2 ∨ bad (D.delayFor n) ∨
      bad (D.A.G.data 0) ∨ bad (D.A.G.data D.A.num) ∨ bad (D.A.G.data (2 * D.A.num)) ∨
      (D.A.focMet = .ud ∧ bad (D.A.focal.data 0)) ∨
      nan D.p.cp ∨ D.p.cp = lit 0 ∨ nan D.p.dt ∨ D.p.dt = lit 0)
    (nth : Nat) (h1 : 1 ≤ nth) (as : List Act) (s' : Sys F (ALoc F)) (hr : D.drv.Run nth m as s') :
    s'.running = false ∧ (D.level = .ignore ∨ D.level = .warn ∨ D.level = .none → Act.abort ∈ as) := by
  obtain ⟨d, hd⟩ := maxDimArr_ok D.A.G D.A.num hA.num (by rw [hA.grid])
  obtain ⟨e, he, hgx, hgy, hgz, hfoc⟩ : ∃ e, D.A.elem d D.p.cp 0 = .ok e ∧ e.gx = D.A.G.data 0 ∧
      e.gy = D.A.G.data D.A.num ∧ e.gz = D.A.G.data (2 * D.A.num) ∧
      (D.A.focMet = .ud → e.foc = D.A.focal.data 0) :=
    ⟨_, elem_ok D.A hA d D.p.cp 0 hA.num, rfl, rfl, rfl, fun h => by simp only [if_pos h]⟩
  have hSp : SpecialArg nan bad (D.K.kern e.weight) { D.p with delay := D.delayFor n -. e.foc -. e.steer }
      ((D.obs n).1 -. e.gx) ((D.obs n).2.1 -. e.gy) ((D.obs n).2.2 -. e.gz) := by
    unfold SpecialArg
    rcases hsp with h | h | h | h | h | h | h | ⟨h, h'⟩ | h | h | h | h
    · exact .inl (hL.sub_bad _ _ (.inl h))
    · exact .inr (.inl (hL.sub_bad _ _ (.inl h)))
    · exact .inr (.inr (.inl (hL.sub_bad _ _ (.inl h))))
    · exact .inr (.inr (.inr (.inl (hL.sub_bad _ _ (.inl (hL.sub_bad _ _ (.inl h)))))))
    · exact .inl (hL.sub_bad _ _ (.inr (hgx ▸ h)))
    · exact .inr (.inl (hL.sub_bad _ _ (.inr (hgy ▸ h))))
    · exact .inr (.inr (.inl (hL.sub_bad _ _ (.inr (hgz ▸ h)))))
    · refine .inr (.inr (.inr (.inl (hL.sub_bad _ _ (.inl (hL.sub_bad _ _ (.inr ?_)))))))
      rw [hfoc h]
      exact h'
    · exact .inr (.inr (.inr (.inr (.inl h))))
    · exact .inr (.inr (.inr (.inr (.inr (.inl h)))))
    · exact .inr (.inr (.inr (.inr (.inr (.inr (.inl h))))))
    · exact .inr (.inr (.inr (.inr (.inr (.inr (.inr (.inl h)))))))
  have hc' : (D.K.kern e.weight).FirstCell { D.p with delay := D.delayFor n -. e.foc -. e.steer } := by
    cases hk : D.K <;> rw [hk] at hc <;> exact hc
  have hDo := Kern.doomed hL (D.K.kern e.weight) _ _ _ _ D.ty hSp hc'
  have hf : s'.running = false := by
    let B : ALoc F → Prop := fun l => (l.xo = (D.obs n).1 ∧ l.yo = (D.obs n).2.1 ∧ l.zo = (D.obs n).2.2 ∧
        l.delay = D.delayFor n) ∧ match l.pc with
      | .next d' k _ => d' = d ∧ k = 0
      | .run _ _ x => x.Doomed D.ty
      | _ => True
    refine Drv.fails D.drv B n hn ?_ ?_ m nth h1 as s' hr
    · intro l hb
      rw [arr_begin_at D m hs n hn l hb]
      refine ⟨⟨rfl, rfl, rfl, rfl⟩, ?_⟩
      simp only [ArrCall.entry]
      cases D.K.clears D.att <;> trivial
    · rintro ⟨xo, yo, zo, dl, pc⟩ ⟨⟨rfl, rfl, rfl, rfl⟩, hB⟩
      show (D.step _).Holds _
      cases pc with
      | clear j =>
        simp only [ArrCall.step]
        by_cases hj : j < D.nt
        · rw [if_pos hj]; exact ⟨⟨rfl, rfl, rfl, rfl⟩, trivial⟩
        · rw [if_neg hj]; exact ⟨⟨rfl, rfl, rfl, rfl⟩, trivial⟩
      | dims =>
        simp only [ArrCall.step, hd]
        exact ⟨⟨rfl, rfl, rfl, rfl⟩, rfl, rfl⟩
      | next d' k err =>
        obtain ⟨rfl, rfl⟩ := (hB : d' = d ∧ k = 0)
        simp only [ArrCall.step]
        rw [if_pos (show 0 < D.A.num from hA.num), he]
        exact ⟨⟨rfl, rfl, rfl, rfl⟩, hDo⟩
      | run d' k x =>
        have h2 := KLoc.doomed_step (nt := D.nt) (level := D.level) (att := D.att) x hB
        simp only [ArrCall.step]
        cases hs : kernStep D.nt D.ty D.level D.att x with
        | tau x' => rw [hs] at h2; exact ⟨⟨rfl, rfl, rfl, rfl⟩, h2⟩
        | ret c => rw [hs] at h2; exact h2.elim
        | bad c => trivial
        | rd j f => rw [hs] at h2; exact fun y => ⟨⟨rfl, rfl, rfl, rfl⟩, h2 y⟩
        | wr j y x' => rw [hs] at h2; exact ⟨⟨rfl, rfl, rfl, rfl⟩, h2⟩
  refine ⟨hf, fun hl => ?_⟩
  by_contra hab
  rw [arr_stays_up D m hl nth h1 as hab s' hr] at hf
  simp at hf


/-! ### C85: NaN in the geometry or the velocity -/

/-- A dimension of the transducer or a sampling step is NaN, or a cylindrical transducer is wider than twice its
radius of curvature. -/
def Kern.NanGeometry (nan : F → Prop) (p : Par F) : Kern F → Prop
  | .rect _ a b => nan a ∨ nan b ∨ nan p.dx ∨ nan p.dy
  | .rectF _ _ a b => nan a ∨ nan b ∨ nan p.dx ∨ nan p.dy
  | .circ _ R => nan R ∨ nan p.dx ∨ nan p.dy
  | .circF _ _ R => nan R ∨ nan p.dx ∨ nan p.dy
  | .sphere R _ => nan R ∨ nan p.dx ∨ nan p.dy
  | .line a => nan a ∨ nan p.dx
  | .cylind _ a b Rc => nan a ∨ nan b ∨ nan Rc ∨ nan p.dx ∨ nan p.dy ∨
      Arith.lt (Rc *. Rc -. (b /. lit 2) *. (b /. lit 2)) (lit 0) = true

theorem visits_none_left {dx xmax x : F} (h : le x xmax = false) {fuel : Nat} {l : List F}
    (hv : visits dx xmax fuel x = some l) : l = [] := by
  cases fuel with
  | zero => simp [visits] at hv
  | succ n =>
    unfold visits at hv
    rw [if_neg (by simp [h])] at hv
    simpa using hv.symm

theorem Sweep.no_points {g : Sweep F}
    (h : le g.y0 g.ymax = false ∨ ∀ ys, le (g.row ys).x0 (g.row ys).xmax = false) {fuel : Nat}
    {ps : List (Pt F)} (hp : g.points fuel = some ps) : ps = [] := by
  unfold Sweep.points at hp
  cases hv : visits g.dy g.ymax fuel g.y0 with
  | none => rw [hv] at hp; simp at hp
  | some l =>
    rw [hv] at hp
    simp only [Option.bind_some] at hp
    rcases h with h | h
    · rw [visits_none_left h hv] at hp
      simpa [rowsPoints] using hp.symm
    · clear hv
      induction l generalizing ps with
      | nil => simpa [rowsPoints] using hp.symm
      | cons y l ih =>
        simp only [rowsPoints] at hp
        cases h1 : (g.row y).points g.dx fuel with
        | none => rw [h1] at hp; simp at hp
        | some a =>
          cases h2 : rowsPoints g.row g.dx fuel l with
          | none => rw [h1, h2] at hp; simp at hp
          | some b =>
            rw [h1, h2] at hp
            simp only [Option.some.injEq] at hp
            unfold Row.points at h1
            cases h3 : visits g.dx (g.row y).xmax fuel (g.row y).x0 with
            | none => rw [h3] at h1; simp at h1
            | some xs =>
              rw [h3, visits_none_left (h y) h3] at h1
              simp only [Option.map_some, List.map_nil, Option.some.injEq] at h1
              rw [← hp, ← h1, ih h2]
              rfl

theorem Kern.nan_points {nan bad : F → Prop} (hL : IeeeLaws nan bad) (k : Kern F) (p : Par F) (xo yo zo : F)
    (h : k.NanGeometry nan p) {fuel : Nat} {ps : List (Pt F)} (hp : k.points p xo yo zo fuel = some ps) :
    ps = [] := by
  have start : ∀ a d : F, nan a ∨ nan d → nan (neg a /. lit 2 +. d /. lit 2) := by
    intro a d h
    rcases h with h | h
    · exact hL.add_nan _ _ (.inl (hL.div_nan _ _ (.inl (hL.neg_nan _ h))))
    · exact hL.add_nan _ _ (.inr (hL.div_nan _ _ (.inl h)))
  have start' : ∀ a d : F, nan a ∨ nan d → nan (neg a +. d /. lit 2) := by
    intro a d h
    rcases h with h | h
    · exact hL.add_nan _ _ (.inl (hL.neg_nan _ h))
    · exact hL.add_nan _ _ (.inr (hL.div_nan _ _ (.inl h)))
  have lel : ∀ a b : F, nan a → le a b = false := fun a b h => hL.le_nan _ _ (.inl h)
  cases k with
  | rect w a b =>
    rcases h with h | h | h | h
    · exact Sweep.no_points (.inr fun ys => lel _ _ (start _ _ (.inl h))) hp
    · exact Sweep.no_points (.inl (lel _ _ (start _ _ (.inl h)))) hp
    · exact Sweep.no_points (.inr fun ys => lel _ _ (start _ _ (.inr h))) hp
    · exact Sweep.no_points (.inl (lel _ _ (start _ _ (.inr h)))) hp
  | rectF met f a b =>
    rcases h with h | h | h | h
    · exact Sweep.no_points (.inr fun ys => lel _ _ (start _ _ (.inl h))) hp
    · exact Sweep.no_points (.inl (lel _ _ (start _ _ (.inl h)))) hp
    · exact Sweep.no_points (.inr fun ys => lel _ _ (start _ _ (.inr h))) hp
    · exact Sweep.no_points (.inl (lel _ _ (start _ _ (.inr h)))) hp
  | circ w R =>
    rcases h with h | h | h
    · exact Sweep.no_points (.inl (lel _ _ (start' _ _ (.inl h)))) hp
    · exact Sweep.no_points (.inr fun ys => lel _ _ (start' _ _ (.inr h))) hp
    · exact Sweep.no_points (.inl (lel _ _ (start' _ _ (.inr h)))) hp
  | circF met f R =>
    rcases h with h | h | h
    · exact Sweep.no_points (.inl (lel _ _ (start' _ _ (.inl h)))) hp
    · exact Sweep.no_points (.inr fun ys => lel _ _ (start' _ _ (.inr h))) hp
    · exact Sweep.no_points (.inl (lel _ _ (start' _ _ (.inr h)))) hp
  | sphere R Rc =>
    rcases h with h | h | h
    · exact Sweep.no_points (.inl (lel _ _ (start' _ _ (.inl h)))) hp
    · exact Sweep.no_points (.inr fun ys => lel _ _ (start' _ _ (.inr h))) hp
    · exact Sweep.no_points (.inl (lel _ _ (start' _ _ (.inr h)))) hp
  | line a =>
    have h' : (lineRow p xo yo zo a).points p.dx fuel = some ps := hp
    unfold Row.points at h'
    cases hv : visits p.dx (lineRow p xo yo zo a).xmax fuel (lineRow p xo yo zo a).x0 with
    | none => rw [hv] at h'; simp at h'
    | some xs =>
      rw [hv, visits_none_left (lel _ _ (start _ _ h)) hv] at h'
      simpa using h'.symm
  | cylind w a b Rc =>
    -- the half angle is NaN
    have phi : ∀ x y : F, nan x ∨ nan y → nan (lit 2 *. atan (x /. y) /. lit 2) := by
      intro x y h
      exact hL.div_nan _ _ (.inl (hL.mul_nan _ _ (.inr (hL.atan_nan _ (hL.div_nan _ _ h)))))
    have outer : ∀ hn : nan ((lit 2 *. atan ((b /. lit 2) /. (Arith.abs Rc -. (Arith.abs Rc -.
        sqrt (Rc *. Rc -. (b /. lit 2) *. (b /. lit 2)))))) /. lit 2), ps = [] := fun hn =>
      Sweep.no_points (.inl (hL.le_nan _ _ (.inr hn))) hp
    rcases h with h | h | h | h | h | h
    · exact Sweep.no_points (.inr fun ys => lel _ _ (start _ _ (.inl h))) hp
    · exact outer (phi _ _ (.inl (hL.div_nan _ _ (.inl h))))
    · exact outer (phi _ _ (.inr (hL.sub_nan _ _ (.inl (hL.abs_nan _ h)))))
    · exact Sweep.no_points (.inr fun ys => lel _ _ (start _ _ (.inr h))) hp
    · refine Sweep.no_points (.inl (lel _ _ ?_)) hp
      exact hL.add_nan _ _ (.inr (hL.div_nan _ _ (.inl (hL.asin_nan _ (hL.div_nan _ _ (.inl h))))))
    · exact outer (phi _ _ (.inr (hL.sub_nan _ _ (.inr (hL.sub_nan _ _ (.inr (hL.sqrt_neg _ h)))))))

/-- The response of a transducer without cells. -/
theorem serial_no_cells (D : SirCall F) (m : Buf F) (hs : D.Sized m) (n : Nat) (hn : n < D.No) (fuel : Nat)
    (hps : D.k.points { D.p with delay := D.delayFor n } (D.obs n).1 (D.obs n).2.1 (D.obs n).2.2 fuel = some []) :
    ∃ m', D.serialAt n fuel m = .ok (m', .none) ∧
      ∀ j, j < D.nt → m'.data (n * D.nt + j) = D.k.initial (n * D.nt) m j := by
  have hb : n * D.nt + D.nt ≤ m.size := by
    rw [hs.out]
    calc n * D.nt + D.nt = (n + 1) * D.nt := by ring
      _ ≤ D.No * D.nt := Nat.mul_le_mul_right _ hn
  unfold SirCall.serialAt
  rw [D.inputs_eq m hs n hn]
  simp only [Outcome.bind]
  by_cases hl : D.level = .ignore ∨ D.level = .warn ∨ D.level = .none
  · obtain ⟨m', h1, h2⟩ := C10_ignore_warn D.k D.nt D.ty D.level D.att { D.p with delay := D.delayFor n }
      (D.obs n).1 (D.obs n).2.1 (D.obs n).2.2 fuel (n * D.nt) m hb [] hps (by simp) hl
    exact ⟨m', by simpa using h1, fun j hj => by rw [h2 j hj]; rfl⟩
  · have hl' : D.level = .stop ∨ D.level = .parallelStop := by
      cases hD : D.level <;> simp_all
    obtain ⟨m', h1, h2⟩ := C10_stop D.k D.nt D.ty D.level D.att { D.p with delay := D.delayFor n }
      (D.obs n).1 (D.obs n).2.1 (D.obs n).2.2 fuel (n * D.nt) m hb [] hps (by simp) hl'
    exact ⟨m', by simpa using h1, fun j hj => by rw [h2 j hj]; rfl⟩

/-- C85: if a dimension of the transducer or a sampling step is NaN (or a cylindrical transducer is wider than
twice its radius of curvature) the call succeeds at every error level, without a warning, and returns zeros
(provided the loop over the rows ends). -/
theorem C85_nan_geometry {nan bad : F → Prop} (hL : IeeeLaws nan bad) (D : SirCall F) (m : Buf F)
    (hs : D.Sized m) (hz : ∀ i, i < m.size → m.data i = lit 0) (hn : D.k.NanGeometry nan D.p)
    (hends : ∀ n < D.No, ∃ fuel ps, D.k.points { D.p with delay := D.delayFor n } (D.obs n).1 (D.obs n).2.1
      (D.obs n).2.2 fuel = some ps) :
    D.Defined m ∧ ∀ nth, 1 ≤ nth → ∀ as s', Act.abort ∉ as → D.Run nth m as s' →
      wrapper s'.running (returned nth s') = .value ∧
      ∀ n < D.No, ∀ j < D.nt, s'.mem.data (n * D.nt + j) = lit 0 := by
  have key : ∀ n, n < D.No → ∃ fuel m', D.serialAt n fuel m = .ok (m', .none) ∧
      ∀ j, j < D.nt → m'.data (n * D.nt + j) = lit 0 := by
    intro n hnN
    obtain ⟨fuel, ps, hp⟩ := hends n hnN
    have h' : D.k.NanGeometry nan { D.p with delay := D.delayFor n } := by
      cases hk : D.k <;> rw [hk] at hn <;> exact hn
    have := Kern.nan_points hL D.k _ _ _ _ h' hp
    subst this
    obtain ⟨m', h1, h2⟩ := serial_no_cells D m hs n hnN fuel hp
    refine ⟨fuel, m', h1, fun j hj => ?_⟩
    rw [h2 j hj]
    unfold Kern.initial
    have hb : n * D.nt + j < m.size := by
      rw [hs.out]
      calc n * D.nt + j < (n + 1) * D.nt := by rw [Nat.add_mul]; omega
        _ ≤ D.No * D.nt := Nat.mul_le_mul_right _ hnN
    split
    · rfl
    · exact hz _ hb
  have hd : D.Defined m := fun n hn => by
    obtain ⟨fuel, m', h, _⟩ := key n hn
    exact ⟨fuel, _, h⟩
  have huniq : ∀ n, n < D.No → ∀ e, D.PointErr m n e → e = .none := by
    intro n hn e he
    obtain ⟨fuel, m', h, _⟩ := key n hn
    exact Drv.PointErr.unique (SirCall.faithful hs) hd hn he ⟨fuel, m', h⟩
  refine ⟨hd, fun nth h1 as s' hab hr => ⟨?_, fun n hn j hj => ?_⟩⟩
  · rw [C42_user_outcome hs hd nth h1 as hab s' hr, if_neg, if_neg]
    · rintro ⟨⟨n, hn, he⟩, _⟩; have := huniq n hn _ he; simp at this
    · rintro ⟨n, hn, he⟩; have := huniq n hn _ he; simp at this
  · obtain ⟨fuel, m', h, h2⟩ := key n hn
    rw [C03_columns hs hd nth h1 as hab (fun n hn he => by have := huniq n hn _ he; simp at this) s' hr n hn
      fuel m' _ h j hj, h2 j hj]


/-! ### C85: NaN for the normal velocity -/

theorem rowsPoints_mem {row : F → Row F} {dx : F} {fuel : Nat} :
    ∀ {l : List F} {ps : List (Pt F)}, rowsPoints row dx fuel l = some ps → ∀ q ∈ ps, ∃ ys xs, q = (row ys).pt xs := by
  intro l
  induction l with
  | nil => intro ps h q hq; simp [rowsPoints] at h; subst h; simp at hq
  | cons y l ih =>
    intro ps h q hq
    simp only [rowsPoints] at h
    cases h1 : (row y).points dx fuel with
    | none => rw [h1] at h; simp at h
    | some a =>
      cases h2 : rowsPoints row dx fuel l with
      | none => rw [h1, h2] at h; simp at h
      | some b =>
        rw [h1, h2] at h
        simp only [Option.some.injEq] at h
        subst h
        rcases List.mem_append.mp hq with hq | hq
        · unfold Row.points at h1
          cases h3 : visits dx (row y).xmax fuel (row y).x0 with
          | none => rw [h3] at h1; simp at h1
          | some xs =>
            rw [h3] at h1
            simp only [Option.map_some, Option.some.injEq] at h1
            subst h1
            obtain ⟨x, _, rfl⟩ := List.mem_map.mp hq
            exact ⟨y, x, rfl⟩
        · exact ih h2 q hq

theorem Kern.points_mem (k : Kern F) (p : Par F) (xo yo zo : F) {fuel : Nat} {ps : List (Pt F)}
    (hp : k.points p xo yo zo fuel = some ps) (q : Pt F) (hq : q ∈ ps) :
    ∃ ys xs, q = ((k.geo p xo yo zo).row ys).pt xs := by
  have sweep : ∀ g : Sweep F, g.points fuel = some ps → ∃ ys xs, q = (g.row ys).pt xs := by
    intro g hg
    unfold Sweep.points at hg
    cases hv : visits g.dy g.ymax fuel g.y0 with
    | none => rw [hv] at hg; simp at hg
    | some l => rw [hv] at hg; exact rowsPoints_mem hg q hq
  cases k with
  | line a =>
    have h' : (lineRow p xo yo zo a).points p.dx fuel = some ps := hp
    unfold Row.points at h'
    cases hv : visits p.dx (lineRow p xo yo zo a).xmax fuel (lineRow p xo yo zo a).x0 with
    | none => rw [hv] at h'; simp at h'
    | some xs =>
      rw [hv] at h'
      simp only [Option.map_some, Option.some.injEq] at h'
      subst h'
      obtain ⟨x, hx, rfl⟩ := List.mem_map.mp hq
      exact ⟨lit 0, x, rfl⟩
  | rect w a b => exact sweep _ hp
  | circ w R => exact sweep _ hp
  | cylind w a b Rc => exact sweep _ hp
  | rectF met f a b => exact sweep _ hp
  | circF met f R => exact sweep _ hp
  | sphere R Rc => exact sweep _ hp

/-- A NaN velocity makes every amplitude NaN. -/
theorem IeeeLaws.amplitudes {nan bad : F → Prop} (hL : IeeeLaws nan bad) (k : Kern F) (p : Par F) (xo yo zo : F)
    (hv : nan p.v) (ys xs : F) : nan (((k.geo p xo yo zo).row ys).pt xs).ai := by
  have ha : ∀ w ds r dt : F, nan w → nan (amp w ds r dt) := fun w ds r dt h =>
    hL.mul_nan _ _ (.inl (hL.div_nan _ _ (.inl (hL.div_nan _ _ (.inl (hL.mul_nan _ _ (.inl h)))))))
  cases k with
  | rect w a b => exact ha _ _ _ _ (hL.mul_nan _ _ (.inr hv))
  | circ w R => exact ha _ _ _ _ (hL.mul_nan _ _ (.inr hv))
  | line a => exact ha _ _ _ _ hv
  | rectF met f a b => exact ha _ _ _ _ hv
  | circF met f R => exact ha _ _ _ _ hv
  | sphere R Rc => exact ha _ _ _ _ hv
  | cylind w a b Rc =>
    exact hL.mul_nan _ _ (.inl (hL.div_nan _ _ (.inl (hL.div_nan _ _ (.inl (hL.mul_nan _ _ (.inl
      (hL.mul_nan _ _ (.inl (hL.mul_nan _ _ (.inr hv)))))))))))

/-- The sum of a list of contributions one of which is NaN. -/
theorem nan_sum {nan bad : F → Prop} (hL : IeeeLaws nan bad) (att : Option (AttResp F)) (i : Nat)
    (ps : List (Pt F)) (hn : ∀ q ∈ ps, nan q.ai) : ∀ s : F,
    (nan s ∨ ∃ q ∈ ps, att = none → q.idx = (i : Int)) → nan (ps.foldl (contribution att i) s) := by
  induction ps with
  | nil =>
    intro s h
    rcases h with h | ⟨q, hq, _⟩
    · exact h
    · simp at hq
  | cons p ps ih =>
    intro s h
    rw [List.foldl_cons]
    refine ih (fun q hq => hn q (List.mem_cons_of_mem _ hq)) _ ?_
    have hp := hn p List.mem_cons_self
    by_cases hs : nan (contribution att i s p)
    · exact .inl hs
    · right
      rcases h with h | ⟨q, hq, hi⟩
      · refine absurd ?_ hs
        unfold contribution
        cases att with
        | none =>
          show nan (if p.idx = (i : Int) then s +. p.ai else s)
          split
          · exact hL.add_nan _ _ (.inl h)
          · exact h
        | some x => exact hL.add_nan _ _ (.inl h)
      · rcases List.mem_cons.mp hq with rfl | hq
        · refine absurd ?_ hs
          unfold contribution
          cases att with
          | none =>
            show nan (if q.idx = (i : Int) then s +. q.ai else s)
            rw [if_pos (hi rfl)]
            exact hL.add_nan _ _ (.inr hp)
          | some x => exact hL.add_nan _ _ (.inr (hL.mul_nan _ _ (.inl hp)))
        · exact ⟨q, hq, hi⟩

theorem takeWhile_all {α : Type} {p : α → Bool} {l : List α} (h : ∀ a ∈ l, p a = true) : l.takeWhile p = l := by
  induction l with
  | nil => rfl
  | cons a l ih =>
    rw [List.takeWhile_cons, if_pos (h a List.mem_cons_self), ih fun b hb => h b (List.mem_cons_of_mem _ hb)]

theorem untouched_sum (i : Nat) (ps : List (Pt F)) (hn : ∀ q ∈ ps, q.idx ≠ (i : Int)) (s : F) :
    ps.foldl (contribution none i) s = s := by
  induction ps generalizing s with
  | nil => rfl
  | cons p ps ih =>
    rw [List.foldl_cons, ih (fun q hq => hn q (List.mem_cons_of_mem _ hq))]
    show (if p.idx = (i : Int) then s +. p.ai else s) = s
    rw [if_neg (hn p List.mem_cons_self)]

/-- C85: with a NaN velocity, and arrival times that are all sample indices (for the levels 'stop' and
'parallel stop': all inside the response), the call succeeds at every error level and the response is NaN:
without attenuation at exactly the samples at which a part of the transducer is heard, the others being zero;
with attenuation everywhere as soon as one part is heard within the response. -/
theorem C85_nan_velocity {nan bad : F → Prop} (hL : IeeeLaws nan bad) (D : SirCall F) (m : Buf F)
    (hs : D.Sized m) (hz : ∀ i, i < m.size → m.data i = lit 0) (hv : nan D.p.v) (cells : Nat → List (Pt F))
    (hp : ∀ n < D.No, ∃ fuel, D.k.points { D.p with delay := D.delayFor n } (D.obs n).1 (D.obs n).2.1
      (D.obs n).2.2 fuel = some (cells n))
    (hc : ∀ n < D.No, ∀ q ∈ cells n, q.castOk D.ty)
    (hl : (D.level = .ignore ∨ D.level = .warn ∨ D.level = .none) ∨
      ∀ n < D.No, ∀ q ∈ cells n, q.inRange D.nt = true) :
    D.Defined m ∧ ∀ nth, 1 ≤ nth → ∀ as s', Act.abort ∉ as → D.Run nth m as s' →
      (wrapper s'.running (returned nth s') = .value ∨
        wrapper s'.running (returned nth s') = .valueWithWarning) ∧
      ∀ n < D.No, ∀ j < D.nt,
        (D.att = none → ((∃ q ∈ cells n, q.idx = (j : Int)) → nan (s'.mem.data (n * D.nt + j))) ∧
          ((∀ q ∈ cells n, q.idx ≠ (j : Int)) → s'.mem.data (n * D.nt + j) = lit 0)) ∧
        (D.att ≠ none → (∃ q ∈ cells n, q.inRange D.nt = true) → nan (s'.mem.data (n * D.nt + j))) := by
  have key : ∀ n, n < D.No → ∃ fuel m' e, D.serialAt n fuel m = .ok (m', e) ∧ e ≠ .outOfBounds ∧
      ∀ j, j < D.nt → m'.data (n * D.nt + j) =
        ((cells n).filter (Pt.inRange D.nt)).foldl (contribution D.att j) (lit 0) := by
    intro n hn
    have hb : n * D.nt + D.nt ≤ m.size := by
      rw [hs.out]
      calc n * D.nt + D.nt = (n + 1) * D.nt := by ring
        _ ≤ D.No * D.nt := Nat.mul_le_mul_right _ hn
    have hin : ∀ j, j < D.nt → D.k.initial (n * D.nt) m j = lit 0 := by
      intro j hj
      unfold Kern.initial
      split
      · rfl
      · exact hz _ (by omega)
    obtain ⟨fuel, hp⟩ := hp n hn
    have hser : ∀ x, D.k.serial D.nt D.ty D.level D.att { D.p with delay := D.delayFor n }
        (D.obs n).1 (D.obs n).2.1 (D.obs n).2.2 fuel (n * D.nt) m = x → D.serialAt n fuel m = x := by
      intro x hx
      unfold SirCall.serialAt
      rw [D.inputs_eq m hs n hn]
      exact hx
    by_cases hl1 : D.level = .ignore ∨ D.level = .warn ∨ D.level = .none
    · obtain ⟨m', h1, h2⟩ := C10_ignore_warn D.k D.nt D.ty D.level D.att { D.p with delay := D.delayFor n }
        (D.obs n).1 (D.obs n).2.1 (D.obs n).2.2 fuel (n * D.nt) m hb _ hp (hc n hn) hl1
      refine ⟨fuel, m', _, hser _ h1, ?_, fun j hj => by rw [h2 j hj, hin j hj]⟩
      rcases hl1 with h | h | h <;> rw [h] <;> split <;> simp [codeOf]
    · have hr := (hl.resolve_left hl1) n hn
      have hl2 : D.level = .stop ∨ D.level = .parallelStop := by
        cases hD : D.level <;> simp_all
      obtain ⟨m', h1, h2⟩ := C10_stop D.k D.nt D.ty D.level D.att { D.p with delay := D.delayFor n }
        (D.obs n).1 (D.obs n).2.1 (D.obs n).2.2 fuel (n * D.nt) m hb _ hp (hc n hn) hl2
      refine ⟨fuel, m', _, hser _ h1, ?_, fun j hj => ?_⟩
      · rw [if_pos (by simpa using hr)]; simp
      · rw [h2 j hj, hin j hj]
        rw [show (cells n).takeWhile (Pt.inRange D.nt) = (cells n).filter (Pt.inRange D.nt) by
          rw [takeWhile_all hr, List.filter_eq_self.mpr hr]]
  have hd : D.Defined m := fun n hn => by
    obtain ⟨fuel, m', e, h, _⟩ := key n hn
    exact ⟨fuel, _, h⟩
  have hno : ∀ n, n < D.No → ¬ D.PointErr m n .outOfBounds := by
    intro n hn he
    obtain ⟨fuel, m', e, h, h', _⟩ := key n hn
    exact h' (Drv.PointErr.unique (SirCall.faithful hs) hd hn he ⟨fuel, m', h⟩).symm
  have hai : ∀ n < D.No, ∀ q ∈ (cells n).filter (Pt.inRange D.nt), nan q.ai := by
    intro n hn q hq
    obtain ⟨fuel, hp⟩ := hp n hn
    obtain ⟨ys, xs, rfl⟩ := Kern.points_mem _ _ _ _ _ hp q (List.mem_filter.mp hq).1
    exact hL.amplitudes D.k { D.p with delay := D.delayFor n } _ _ _ hv ys xs
  refine ⟨hd, fun nth h1 as s' hab hr => ⟨?_, fun n hn j hj => ?_⟩⟩
  · rw [C42_user_outcome hs hd nth h1 as hab s' hr, if_neg (fun ⟨n, hn, he⟩ => hno n hn he)]
    split <;> simp
  · obtain ⟨fuel, m', e, h, _, h2⟩ := key n hn
    rw [C03_columns hs hd nth h1 as hab hno s' hr n hn fuel m' _ h j hj, h2 j hj]
    refine ⟨fun ha => ⟨fun ⟨q, hq, hi⟩ => ?_, fun hq => ?_⟩, fun ha ⟨q, hq, hi⟩ => ?_⟩
    · refine nan_sum hL _ _ _ (hai n hn) _ (.inr ⟨q, ?_, fun _ => hi⟩)
      refine List.mem_filter.mpr ⟨hq, ?_⟩
      unfold Pt.inRange
      rw [hi]
      simp
      omega
    · rw [ha]
      exact untouched_sum j _ (fun q hq' => hq q (List.mem_filter.mp hq').1) _
    · exact nan_sum hL _ _ _ (hai n hn) _ (.inr ⟨q, List.mem_filter.mpr ⟨hq, hi⟩, fun h => absurd h ha⟩)


/-! ### C85: the hypotheses can be met -/

/-- Two points, the first of which is far outside the response and the second heard before sample zero; in
MATLAB, whose indices are unsigned. -/
@[reducible] def earlyCall (level : ErrorLevel) : SirCall Int where
  k := .rect 1 4 4
  p := { dx := 2, dy := 2, dt := 1, delay := 0, v := 100, cp := 1000 }
  att := none
  nt := 12
  ty := .unsigned
  level := level
  No := 2
  Ro := { size := 6, data := fun i => [0, 0, 0, 0, 40, 5].getD i 0 }
  delayType := .multiple
  delay := { size := 2, data := fun i => [0, 20].getD i 0 }

-- C85_bad_cell: a bad cell at the second point
attribute [local instance] toyArith in
example : (earlyCall .stop).Sized toyOut ∧
    ∃ ps, (earlyCall .stop).k.points { (earlyCall .stop).p with delay := (earlyCall .stop).delayFor 1 }
      ((earlyCall .stop).obs 1).1 ((earlyCall .stop).obs 1).2.1 ((earlyCall .stop).obs 1).2.2 5 = some ps ∧
      ∃ q ∈ ps, ¬ q.castOk (earlyCall .stop).ty := by
  refine ⟨⟨rfl, rfl, rfl⟩, _, rfl, _, List.mem_cons_self, ?_⟩
  rintro ⟨i, hi, hf⟩
  have hi' : some (-15 : Int) = some i := hi
  rw [← Option.some.inj hi'] at hf
  simp [IdxTy.fits] at hf

-- and a complete run of that call (stopped by the first point)
attribute [local instance] toyArith in
example : ∃ as s', (earlyCall .stop).Run 1 toyOut as s' ∧ Act.abort ∉ as :=
  ⟨List.replicate 30 (.step 0), _, ⟨rfl, by intro w hw; have hw0 : w = 0 := (by omega); subst hw0; exact trivial⟩, by decide⟩

/-- A line transducer with one cell, one observation point 3 mm in front of it. -/
@[reducible] noncomputable def xCall (x z v a : XReal) (level : ErrorLevel) : SirCall XReal where
  k := .line a
  p := { dx := .num 2, dy := .num 1, dt := .num 1, delay := .num 0, v := v, cp := .num 1000 }
  att := none
  nt := 5
  ty := .signed
  level := level
  No := 1
  Ro := { size := 3, data := fun i => if i = 0 then x else if i = 1 then .num 0 else z }
  delayType := .single
  delay := { size := 1, data := fun _ => .num 0 }

/-- The output matrix of `xCall`. -/
@[reducible] noncomputable def xOut : Buf XReal := { size := 5, data := fun _ => .num 0 }

theorem xSized (x z v a : XReal) (l : ErrorLevel) : (xCall x z v a l).Sized xOut := ⟨rfl, rfl, rfl⟩

-- C85_special: the x coordinate is NaN
example : ((xCall .nan (.num 3) (.num 1) (.num 2) .stop).k.FirstCell
      (xCall .nan (.num 3) (.num 1) (.num 2) .stop).p) ∧
    ∀ n < 1, SpecialArg XReal.isNan XReal.isBad (xCall .nan (.num 3) (.num 1) (.num 2) .stop).k
      { (xCall .nan (.num 3) (.num 1) (.num 2) .stop).p with
        delay := (xCall .nan (.num 3) (.num 1) (.num 2) .stop).delayFor n }
      ((xCall .nan (.num 3) (.num 1) (.num 2) .stop).obs n).1
      ((xCall .nan (.num 3) (.num 1) (.num 2) .stop).obs n).2.1
      ((xCall .nan (.num 3) (.num 1) (.num 2) .stop).obs n).2.2 := by
  constructor
  · show XReal.le _ _ = true
    simp [Arith.neg, Arith.div, Arith.add, Arith.lit, XReal.neg, XReal.div, XReal.add, XReal.le]
  · intro n hn
    left
    have : n = 0 := by omega
    subst this
    simp [SirCall.obs, XReal.isBad]

-- C85_nan_geometry: the length of the line is NaN; the loops end at once
example : (xCall (.num 0) (.num 3) (.num 1) .nan .stop).k.NanGeometry XReal.isNan
      (xCall (.num 0) (.num 3) (.num 1) .nan .stop).p ∧
    ∀ n < 1, ∃ fuel ps, (xCall (.num 0) (.num 3) (.num 1) .nan .stop).k.points
      { (xCall (.num 0) (.num 3) (.num 1) .nan .stop).p with
        delay := (xCall (.num 0) (.num 3) (.num 1) .nan .stop).delayFor n }
      ((xCall (.num 0) (.num 3) (.num 1) .nan .stop).obs n).1
      ((xCall (.num 0) (.num 3) (.num 1) .nan .stop).obs n).2.1
      ((xCall (.num 0) (.num 3) (.num 1) .nan .stop).obs n).2.2 fuel = some ps := by
  refine ⟨.inl trivial, fun n _ => ⟨1, [], ?_⟩⟩
  simp [Kern.points, Row.points, visits, lineRow, Arith.neg, Arith.div, Arith.add, Arith.lit, XReal.neg,
    XReal.div, XReal.add, Arith.le, XReal.le]

-- C85_nan_velocity: one cell, heard at sample 3
example : ∀ n < 1, ∃ fuel, (xCall (.num 0) (.num 3) .nan (.num 2) .stop).k.points
      { (xCall (.num 0) (.num 3) .nan (.num 2) .stop).p with
        delay := (xCall (.num 0) (.num 3) .nan (.num 2) .stop).delayFor n }
      ((xCall (.num 0) (.num 3) .nan (.num 2) .stop).obs n).1
      ((xCall (.num 0) (.num 3) .nan (.num 2) .stop).obs n).2.1
      ((xCall (.num 0) (.num 3) .nan (.num 2) .stop).obs n).2.2 fuel =
        some [{ r := .num 3, ai := .nan, arg := .num 3 }] ∧
      Pt.castOk .signed { r := XReal.num 3, ai := .nan, arg := .num 3 } ∧
      Pt.inRange 5 { r := XReal.num 3, ai := .nan, arg := .num 3 } = true := by
  intro n hn
  have : n = 0 := by omega
  subst this
  have h9 : Real.sqrt (3 * 3) = 3 := Real.sqrt_mul_self (by norm_num)
  have h3 : rintR 3 = 3 := by simpa using rintR_intCast 3
  refine ⟨2, ?_, ⟨3, by simp [Arith.rint, h3], rfl⟩, by simp [Pt.inRange, Pt.idx, Arith.rint, h3]⟩
  simp [Kern.points, Row.points, visits, lineRow, amp, arrival, dist3, SirCall.obs, SirCall.delayFor, Arith.neg,
    Arith.div, Arith.add, Arith.sub, Arith.mul, Arith.sqrt, Arith.lit, XReal.neg, XReal.div, XReal.add,
    XReal.mul, XReal.lift, Arith.le, XReal.le, h9]

-- C85_sphere_beyond: R = 4, Rcurv = 3, steps 1/2
example : ∃ y0 half x0 : XReal, y0 = neg (.num 4) +. .num (1 / 2) /. lit 2 ∧
    half = sqrt (.num 4 *. .num 4 -. y0 *. y0) ∧ x0 = neg half +. .num (1 / 2) /. lit 2 ∧
    le y0 (.num 4) = true ∧ le x0 half = true ∧
    Arith.lt (.num 3 *. .num 3 -. x0 *. x0 -. y0 *. y0) (lit 0) = true := by
  refine ⟨_, _, _, rfl, rfl, rfl, ?_, ?_, ?_⟩
  all_goals
    simp [Arith.neg, Arith.div, Arith.add, Arith.sub, Arith.mul, Arith.sqrt, Arith.lit, XReal.neg, XReal.div,
      XReal.add, XReal.mul, XReal.lift, Arith.le, XReal.le, Arith.lt, XReal.lt]
  all_goals norm_num
  · have h1 : Real.sqrt 16 = 4 := by rw [show (16 : ℝ) = 4 * 4 by norm_num]; exact Real.sqrt_mul_self (by norm_num)
    have h2 : (5 : ℝ) ≤ Real.sqrt 31 := by
      rw [show (5 : ℝ) = Real.sqrt (5 * 5) by rw [Real.sqrt_mul_self (by norm_num)]]
      exact Real.sqrt_le_sqrt (by norm_num)
    rw [h1]
    linarith
  · have := mul_self_nonneg (-(Real.sqrt 31 / Real.sqrt 16) + 1 / 4)
    linarith

/-- Two square elements, an observation point with NaN as the z coordinate. -/
@[reducible] noncomputable def xArr : ArrCall XReal where
  A := { num := 2
         G := { size := 6, data := fun n => if n = 0 then .num (-4) else if n = 1 then .num 4 else .num 0 }
         focMet := .none
         focal := { size := 1, data := fun _ => .num 0 }
         steerMet := .none
         theta := .num 0
         phi := .num 0
         doApod := false
         apod := { size := 0, data := fun _ => .num 0 }
         apodMet := .triangle
         apodPar := .num 0 }
  K := .rect (.num 4) (.num 4)
  p := { dx := .num 2, dy := .num 2, dt := .num 1, delay := .num 0, v := .num 1, cp := .num 1000 }
  att := none
  nt := 5
  ty := .signed
  level := .warn
  No := 1
  Ro := { size := 3, data := fun i => if i = 2 then .nan else .num 0 }
  delayType := .single
  delay := { size := 1, data := fun _ => .num 0 }

-- C85_array_special
example : xArr.Sized xOut ∧ xArr.A.Sized ∧ (xArr.K.kern (lit 1)).FirstCell xArr.p ∧ XReal.isBad (xArr.obs 0).2.2 := by
  refine ⟨⟨rfl, rfl, rfl⟩, ⟨by decide, rfl, ?_, ?_⟩, ⟨?_, ?_⟩, ?_⟩
  all_goals simp [ArrCall.obs, XReal.isBad, Arith.neg, Arith.div, Arith.add, Arith.lit, Arith.le, XReal.neg,
    XReal.div, XReal.add, XReal.le]
  all_goals norm_num

end Dream
