import Verif.ClaimsReal
import Verif.Arr
import Verif.Driver

/-
C12: when the sampling loops of a transducer function end, and what happens to a whole call when they
do not.
-/

namespace Dream
open Arith

/-- When the sampling loops do not end, in terms of the arguments: there is a first row (and, for the
inner loop, a first column), and the step is zero or negative. -/
def Kern.Endless (p : Par ℝ) : Kern ℝ → Prop
  | .rect _ a b => p.dy ≤ 2 * b ∧ (p.dy ≤ 0 ∨ p.dx ≤ 0 ∧ p.dx ≤ 2 * a)
  | .rectF _ _ a b => p.dy ≤ 2 * b ∧ (p.dy ≤ 0 ∨ p.dx ≤ 0 ∧ p.dx ≤ 2 * a)
  | .circ _ R => p.dy ≤ 4 * R ∧ (p.dy ≤ 0 ∨ p.dx ≤ 0)
  | .circF _ _ R => p.dy ≤ 4 * R ∧ (p.dy ≤ 0 ∨ p.dx ≤ 0)
  | .sphere R _ => p.dy ≤ 4 * R ∧ (p.dy ≤ 0 ∨ p.dx ≤ 0)
  | .cylind _ a b Rc =>
    Real.arcsin (p.dy / |Rc|) ≤ 4 * Real.arctan (b / 2 / Real.sqrt (Rc ^ 2 - (b / 2) ^ 2)) ∧
      (Real.arcsin (p.dy / |Rc|) ≤ 0 ∨ p.dx ≤ 0 ∧ p.dx ≤ 2 * a)
  | .line a => p.dx ≤ 0 ∧ p.dx ≤ 2 * a

/-! ### The loops -/

/-- With a step that is not positive the loop never ends. -/
theorem visits_stuck {dx xmax : ℝ} (hdx : dx ≤ 0) (fuel : ℕ) (x0 : ℝ) (h : x0 ≤ xmax) :
    visits dx xmax fuel x0 = none := by
  induction fuel generalizing x0 with
  | zero => rfl
  | succ n ih =>
    unfold visits
    rw [if_pos (by simpa using h), r_add, ih _ (by linarith)]; rfl

theorem visits_empty {dx xmax x0 : ℝ} (h : xmax < x0) (fuel : ℕ) :
    visits dx xmax (fuel + 1) x0 = some [] := by
  unfold visits
  rw [if_neg (by simpa using h)]

/-- The loops of a sweep do not end. -/
def Sweep.Stuck (g : Sweep ℝ) : Prop :=
  g.y0 ≤ g.ymax ∧ (g.dy ≤ 0 ∨ g.dx ≤ 0 ∧ (g.row g.y0).x0 ≤ (g.row g.y0).xmax)

theorem Sweep.stuck_none {g : Sweep ℝ} (h : g.Stuck) (fuel : ℕ) : g.points fuel = none := by
  obtain ⟨hy, h⟩ := h
  unfold Sweep.points
  by_cases hdy : g.dy ≤ 0
  · rw [visits_stuck hdy fuel _ hy]; rfl
  · obtain ⟨hdx, hx⟩ := h.resolve_left hdy
    cases hv : visits g.dy g.ymax fuel g.y0 with
    | none => rfl
    | some l =>
      cases fuel with
      | zero => simp [visits] at hv
      | succ n =>
        unfold visits at hv
        rw [if_pos (by simpa using hy)] at hv
        cases hv2 : visits g.dy g.ymax n (g.y0 +. g.dy) with
        | none => rw [hv2] at hv; simp at hv
        | some l' =>
          rw [hv2] at hv
          simp only [Option.map_some, Option.some.injEq] at hv
          subst hv
          simp only [Option.bind_some, rowsPoints, Row.points, visits_stuck hdx (n + 1) _ hx,
            Option.map_none]

/-- Where the loops end: no row, positive steps, or no column in any row. -/
theorem Sweep.ends {g : Sweep ℝ} (h : g.ymax < g.y0 ∨ 0 < g.dy ∧
    (0 < g.dx ∨ ∀ y, (g.row y).xmax < (g.row y).x0)) : ∃ fuel ps, g.points fuel = some ps := by
  rcases h with h | ⟨hdy, hdx | he⟩
  · exact ⟨1, [], by simp [Sweep.points, visits_empty h 0, rowsPoints]⟩
  · refine ⟨passes g.dy g.ymax g.y0 + 1 + ∑ q ∈ Finset.range (passes g.dy g.ymax g.y0),
      passes g.dx (g.row (g.y0 + (q : ℝ) * g.dy)).xmax (g.row (g.y0 + (q : ℝ) * g.dy)).x0,
      _, Sweep.points_real g hdx hdy _ (by omega) ?_⟩
    intro q hq
    have := Finset.single_le_sum (f := fun q : ℕ =>
      passes g.dx (g.row (g.y0 + (q : ℝ) * g.dy)).xmax (g.row (g.y0 + (q : ℝ) * g.dy)).x0)
      (fun _ _ => Nat.zero_le _) (Finset.mem_range.mpr hq)
    omega
  · refine ⟨passes g.dy g.ymax g.y0 + 1, [], ?_⟩
    unfold Sweep.points
    rw [visits_real hdy _ _ _ (by omega), Option.bind_some]
    generalize (List.range (passes g.dy g.ymax g.y0)).map _ = l
    induction l with
    | nil => rfl
    | cons y l ih =>
      simp only [rowsPoints, Row.points, visits_empty (he y), ih, Option.map_some, List.map_nil,
        List.append_nil]

theorem cylind_zR (b Rc : ℝ) : |Rc| - (|Rc| - Real.sqrt (Rc * Rc - b / 2 * (b / 2))) =
    Real.sqrt (Rc ^ 2 - (b / 2) ^ 2) := by
  rw [show Rc * Rc - b / 2 * (b / 2) = Rc ^ 2 - (b / 2) ^ 2 by ring]; ring

/-- The loops a kernel has do not end exactly under the condition on its arguments. -/
theorem Kern.endless_geo (k : Kern ℝ) (p : Par ℝ) (xo yo zo : ℝ) :
    k.Endless p ↔ ((k.geo p xo yo zo).y0 ≤ (k.geo p xo yo zo).ymax ∧
      (k.single = false ∧ (k.geo p xo yo zo).dy ≤ 0 ∨ (k.geo p xo yo zo).dx ≤ 0 ∧
        ((k.geo p xo yo zo).row (k.geo p xo yo zo).y0).x0 ≤
          ((k.geo p xo yo zo).row (k.geo p xo yo zo).y0).xmax)) := by
  have disc : ∀ R y : ℝ, p.dx ≤ 0 → -Real.sqrt (R * R - y * y) + p.dx / 2 ≤ Real.sqrt (R * R - y * y) := by
    intro R y h
    have := Real.sqrt_nonneg (R * R - y * y)
    linarith
  have rect : ∀ a b : ℝ, (p.dy ≤ 2 * b ∧ (p.dy ≤ 0 ∨ p.dx ≤ 0 ∧ p.dx ≤ 2 * a)) ↔
      (-b / 2 + p.dy / 2 ≤ b / 2 ∧ (p.dy ≤ 0 ∨ p.dx ≤ 0 ∧ -a / 2 + p.dx / 2 ≤ a / 2)) := by
    intro a b
    have h1 : p.dy ≤ 2 * b ↔ -b / 2 + p.dy / 2 ≤ b / 2 := by constructor <;> intro h <;> linarith
    have h2 : p.dx ≤ 2 * a ↔ -a / 2 + p.dx / 2 ≤ a / 2 := by constructor <;> intro h <;> linarith
    rw [h1, h2]
  have circ : ∀ R : ℝ, (p.dy ≤ 4 * R ∧ (p.dy ≤ 0 ∨ p.dx ≤ 0)) ↔
      (-R + p.dy / 2 ≤ R ∧ (p.dy ≤ 0 ∨ p.dx ≤ 0 ∧
        -Real.sqrt (R * R - (-R + p.dy / 2) * (-R + p.dy / 2)) + p.dx / 2 ≤
          Real.sqrt (R * R - (-R + p.dy / 2) * (-R + p.dy / 2)))) := by
    intro R
    have h1 : p.dy ≤ 4 * R ↔ -R + p.dy / 2 ≤ R := by constructor <;> intro h <;> linarith
    rw [h1]
    constructor
    · rintro ⟨h, h2⟩; exact ⟨h, h2.imp_right fun h => ⟨h, disc R _ h⟩⟩
    · rintro ⟨h, h2⟩; exact ⟨h, h2.imp_right fun h => h.1⟩
  cases k with
  | rect w a b =>
    simp only [Kern.Endless, Kern.geo, Kern.single, rectSweep, r_div, r_neg, r_add, r_lit, true_and]
    push_cast; exact rect a b
  | rectF met f a b =>
    simp only [Kern.Endless, Kern.geo, Kern.single, rectFSweep, r_div, r_neg, r_add, r_lit, true_and]
    push_cast; exact rect a b
  | circ w R =>
    simp only [Kern.Endless, Kern.geo, Kern.single, circSweep, r_div, r_neg, r_add, r_lit, r_sqrt, r_sub,
      r_mul, true_and]
    push_cast; exact circ R
  | circF met f R =>
    simp only [Kern.Endless, Kern.geo, Kern.single, circFSweep, r_div, r_neg, r_add, r_lit, r_sqrt, r_sub,
      r_mul, true_and]
    push_cast; exact circ R
  | sphere R Rc =>
    simp only [Kern.Endless, Kern.geo, Kern.single, sphereSweep, r_div, r_neg, r_add, r_lit, r_sqrt, r_sub,
      r_mul, true_and]
    push_cast; exact circ R
  | line a =>
    simp only [Kern.Endless, Kern.geo, Kern.single, lineRow, r_div, r_neg, r_add, r_lit]
    push_cast
    have h2 : p.dx ≤ 2 * a ↔ -a / 2 + p.dx / 2 ≤ a / 2 := by constructor <;> intro h <;> linarith
    simp [h2]
  | cylind w a b Rc =>
    simp only [Kern.Endless, Kern.geo, Kern.single, cylindSweep, r_div, r_neg, r_add, r_lit, r_sqrt, r_sub,
      r_mul, r_abs, r_asin, r_atan, true_and]
    push_cast
    rw [cylind_zR]
    have h2 : p.dx ≤ 2 * a ↔ -a / 2 + p.dx / 2 ≤ a / 2 := by constructor <;> intro h <;> linarith
    rw [h2]
    refine and_congr_left fun _ => ?_
    constructor <;> intro h <;> linarith

/-- C12: the sampling loops end exactly when the arguments are not of the endless kind (for every
transducer, with dimensions and steps of any sign). -/
theorem C12_ends_iff (k : Kern ℝ) (p : Par ℝ) (xo yo zo : ℝ) :
    (∃ fuel ps, k.points p xo yo zo fuel = some ps) ↔ ¬ k.Endless p := by
  have hg := k.endless_geo p xo yo zo
  constructor
  · rintro ⟨fuel, ps, h⟩ he
    have he := hg.mp he
    have hs : k.single = false → (k.geo p xo yo zo).Stuck := fun h => ⟨he.1, he.2.imp_left (·.2)⟩
    cases k with
    | line a =>
      have := he.2.resolve_left (by simp [Kern.single])
      have h' : (lineRow p xo yo zo a).points p.dx fuel = some ps := h
      unfold Row.points at h'
      have h1 : visits p.dx (lineRow p xo yo zo a).xmax fuel (lineRow p xo yo zo a).x0 = none :=
        visits_stuck this.1 fuel _ this.2
      rw [h1] at h'
      simp at h'
    | _ => 
      have h0 := Sweep.stuck_none (hs rfl) fuel
      simp only [Kern.geo] at h0
      simp only [Kern.points, h0] at h
      simp at h
  · intro hn
    rw [hg] at hn
    have key : ∀ g : Sweep ℝ, ¬ (g.y0 ≤ g.ymax ∧ (g.dy ≤ 0 ∨ g.dx ≤ 0 ∧
        (g.row g.y0).x0 ≤ (g.row g.y0).xmax)) →
        (g.dx ≤ 0 → (∀ y, (g.row y).x0 ≤ (g.row y).xmax) ∨
          ∀ y, (g.row y).x0 = (g.row g.y0).x0 ∧ (g.row y).xmax = (g.row g.y0).xmax) →
        ∃ fuel ps, g.points fuel = some ps := by
      intro g h hrow
      refine Sweep.ends ?_
      by_cases hy : g.y0 ≤ g.ymax
      · right
        have h' : ¬ (g.dy ≤ 0 ∨ g.dx ≤ 0 ∧ (g.row g.y0).x0 ≤ (g.row g.y0).xmax) := fun h' => h ⟨hy, h'⟩
        push Not at h'
        refine ⟨h'.1, ?_⟩
        by_cases hdx : 0 < g.dx
        · exact Or.inl hdx
        · right
          have hd : g.dx ≤ 0 := not_lt.mp hdx
          intro y
          rcases hrow hd with h3 | h3
          · exact absurd (h3 g.y0) (not_le.mpr (h'.2 hd))
          · rw [(h3 y).1, (h3 y).2]; exact h'.2 hd
      · exact Or.inl (not_le.mp hy)
    have disc : ∀ R y : ℝ, p.dx ≤ 0 →
        -Real.sqrt (R * R - y * y) + p.dx / 2 ≤ Real.sqrt (R * R - y * y) := by
      intro R y h
      have := Real.sqrt_nonneg (R * R - y * y)
      linarith
    cases k with
    | line a =>
      have h1 : ¬ (p.dx ≤ 0 ∧ (lineRow p xo yo zo a).x0 ≤ (lineRow p xo yo zo a).xmax) := fun h =>
        hn ⟨le_refl _, Or.inr h⟩
      by_cases hdx : 0 < p.dx
      · exact ⟨_, _, Row.points_real (lineRow p xo yo zo a) hdx _ (Nat.lt_succ_self _)⟩
      · refine ⟨1, [], ?_⟩
        have h2 : (lineRow p xo yo zo a).xmax < (lineRow p xo yo zo a).x0 := by
          by_contra h; exact h1 ⟨not_lt.mp hdx, not_lt.mp h⟩
        simp only [Kern.points, Row.points, visits_empty h2 0, Option.map_some, List.map_nil]
    | rect w a b =>
      exact key (rectSweep p w xo yo zo a b) (by simpa [Kern.geo, Kern.single] using hn)
        fun _ => Or.inr fun y => ⟨rfl, rfl⟩
    | rectF met f a b =>
      exact key (rectFSweep p met f xo yo zo a b) (by simpa [Kern.geo, Kern.single] using hn)
        fun _ => Or.inr fun y => ⟨rfl, rfl⟩
    | cylind w a b Rc =>
      exact key (cylindSweep p w xo yo zo a b Rc) (by simpa [Kern.geo, Kern.single] using hn)
        fun _ => Or.inr fun y => ⟨rfl, rfl⟩
    | circ w R =>
      refine key (circSweep p w xo yo zo R) (by simpa [Kern.geo, Kern.single] using hn)
        fun h => Or.inl fun y => ?_
      simp only [circSweep, r_div, r_neg, r_add, r_lit, r_sqrt, r_sub, r_mul]
      push_cast; exact disc R y h
    | circF met f R =>
      refine key (circFSweep p met f xo yo zo R) (by simpa [Kern.geo, Kern.single] using hn)
        fun h => Or.inl fun y => ?_
      simp only [circFSweep, r_div, r_neg, r_add, r_lit, r_sqrt, r_sub, r_mul]
      push_cast; exact disc R y h
    | sphere R Rc =>
      refine key (sphereSweep p xo yo zo R Rc) (by simpa [Kern.geo, Kern.single] using hn)
        fun h => Or.inl fun y => ?_
      simp only [sphereSweep, r_div, r_neg, r_add, r_lit, r_sqrt, r_sub, r_mul]
      push_cast; exact disc R y h

/-! ### Whole calls -/

section Generic
variable {F : Type} [Arith F] {L : Type}

/-- The step leads to states in `I` only and does not return. -/
def Eff.Keeps (I : L → Prop) : Eff F L → Prop
  | .tau l' => I l'
  | .ret _ => False
  | .bad _ => True
  | .rd _ k => ∀ x, I (k x)
  | .wr _ _ l' => I l'

/-- A worker whose programs stay for ever in a set of states that do not return never ends. -/
theorem Drv.never_ends (D : Drv F L) (I : L → Prop)
    (hb : ∀ n l, n < D.No → D.begin n = .ok l → I l)
    (hstep : ∀ n l, I l → (D.step n l).Keeps I)
    (nth : Nat) (m : Buf F) (w : Nat) (hw : w < nth)
    (hr : rangeStart D.No nth w < rangeStop D.No nth w) (as : List Act) (s : Sys F L)
    (he : exec D.task as (initSys D.No nth m) = .ok s) : ¬ s.isDone w := by
  have hmax : rangeStop D.No nth w ≤ D.No := by
    have := rangeStart_le D.No nth (w + 1) (by omega) (by omega)
    rwa [← rangeStop_eq] at this
  let Inv : Sys F L → Prop := fun s => match (s.ws w).pc with
    | .fetch => (s.ws w).n < (s.ws w).stop ∧ (s.ws w).stop ≤ D.No
    | .run l => I l
    | _ => False
  have key : ∀ (as : List Act) (s s' : Sys F L), Inv s → exec D.task as s = .ok s' → Inv s' := by
    intro as
    induction as with
    | nil => intro s s' hi he; simp only [exec, Outcome.ok.injEq] at he; exact he ▸ hi
    | cons a as ih =>
      intro s s' hi he
      simp only [exec] at he
      cases hst : stepSys D.task a s with
      | ub e => rw [hst] at he; simp at he
      | fuel => rw [hst] at he; simp at he
      | ok s1 =>
        rw [hst] at he
        refine ih s1 s' ?_ he
        cases a with
        | abort =>
          simp only [stepSys, Outcome.ok.injEq] at hst
          subst hst; exact hi
        | step v =>
          simp only [stepSys] at hst
          by_cases hv : v = w
          · subst hv
            unfold stepWorker at hst
            simp only [Inv] at hi
            cases hpc : (s.ws v).pc with
            | fetch =>
              simp only [hpc] at hst hi
              rw [if_pos hi.1] at hst
              cases hbn : D.task.begin (s.ws v).n with
              | ub e => rw [hbn] at hst; simp at hst
              | fuel => rw [hbn] at hst; simp at hst
              | ok l =>
                rw [hbn] at hst
                simp only [Outcome.bind, Outcome.ok.injEq] at hst
                subst hst
                simp only [Inv, Sys.setW, if_pos]
                exact hb _ _ (lt_of_lt_of_le hi.1 hi.2) hbn
            | run l =>
              simp only [hpc] at hst hi
              have h1 := hstep (s.ws v).n l hi
              have hm : D.task.micro (s.ws v).n l s.mem =
                  (D.step (s.ws v).n l).onBuf (D.base (s.ws v).n) s.mem := rfl
              rw [hm] at hst
              cases hs : D.step (s.ws v).n l with
              | tau l' =>
                rw [hs] at hst h1
                simp only [Eff.onBuf, Outcome.bind, Outcome.ok.injEq] at hst
                subst hst; simp only [Inv, Sys.setW, if_pos]; exact h1
              | ret e => rw [hs] at h1; exact h1.elim
              | bad e => rw [hs] at hst; simp [Eff.onBuf] at hst
              | rd j k =>
                rw [hs] at hst h1
                simp only [Eff.onBuf] at hst
                cases hrd : s.mem.read ((D.base (s.ws v).n : Int) + j) with
                | ub e => rw [hrd] at hst; simp at hst
                | fuel => rw [hrd] at hst; simp at hst
                | ok x =>
                  rw [hrd] at hst
                  simp only [Outcome.bind, Outcome.ok.injEq] at hst
                  subst hst; simp only [Inv, Sys.setW, if_pos]; exact h1 x
              | wr j x l' =>
                rw [hs] at hst h1
                simp only [Eff.onBuf] at hst
                cases hrd : s.mem.write ((D.base (s.ws v).n : Int) + j) x with
                | ub e => rw [hrd] at hst; simp at hst
                | fuel => rw [hrd] at hst; simp at hst
                | ok m' =>
                  rw [hrd] at hst
                  simp only [Outcome.bind, Outcome.ok.injEq] at hst
                  subst hst; simp only [Inv, Sys.setW, if_pos]; exact h1
            | signal e => simp [hpc] at hi
            | check => simp [hpc] at hi
            | done => simp [hpc] at hi
          · -- another worker
            have hsame : s1.ws w = s.ws w := by
              unfold stepWorker at hst
              have aux : ∀ (t : Sys F L) x, t.ws = s.ws → (t.setW v x).ws w = s.ws w := by
                intro t x ht; simp only [Sys.setW, if_neg (Ne.symm hv), ht]
              cases hpc : (s.ws v).pc with
              | fetch =>
                simp only [hpc] at hst
                split at hst
                · cases hbn : D.task.begin (s.ws v).n with
                  | ub e => rw [hbn] at hst; simp at hst
                  | fuel => rw [hbn] at hst; simp at hst
                  | ok l =>
                    rw [hbn] at hst
                    simp only [Outcome.bind, Outcome.ok.injEq] at hst
                    subst hst; exact aux _ _ rfl
                · simp only [Outcome.ok.injEq] at hst; subst hst; exact aux _ _ rfl
              | run l =>
                simp only [hpc] at hst
                cases hbn : D.task.micro (s.ws v).n l s.mem with
                | ub e => rw [hbn] at hst; simp at hst
                | fuel => rw [hbn] at hst; simp at hst
                | ok r =>
                  obtain ⟨m', r⟩ := r
                  rw [hbn] at hst
                  cases r with
                  | inl l' =>
                    simp only [Outcome.bind, Outcome.ok.injEq] at hst
                    subst hst; exact aux _ _ rfl
                  | inr e =>
                    simp only [Outcome.bind, Outcome.ok.injEq] at hst
                    subst hst; exact aux _ _ rfl
              | signal e =>
                simp only [hpc, Outcome.ok.injEq] at hst; subst hst; exact aux _ _ rfl
              | check =>
                simp only [hpc] at hst
                split at hst <;> simp only [Outcome.ok.injEq] at hst <;> subst hst <;> exact aux _ _ rfl
              | done => simp only [hpc, Outcome.ok.injEq] at hst; subst hst; rfl
            simp only [Inv] at hi ⊢
            rw [hsame]; exact hi
  have h0 : Inv (initSys D.No nth m) := by
    simp only [Inv, initSys, if_pos hw]; exact ⟨hr, hmax⟩
  have h1 := key as _ s h0 he
  simp only [Inv] at h1
  intro hd
  simp only [Sys.isDone] at hd
  cases hpc : (s.ws w).pc with
  | done => rw [hpc] at h1; exact h1
  | _ => rw [hpc] at hd; exact hd

end Generic

/-- A worker inside loops that do not end. -/
def KLoc.Trapped (l : KLoc ℝ) : Prop :=
  (l.single = false ∧ l.g.dy ≤ 0 ∧ match l.pc with
    | .clear _ => l.g.y0 ≤ l.g.ymax
    | .outer ys => ys ≤ l.g.ymax
    | .inner ys _ => ys ≤ l.g.ymax
    | .addRd ys _ _ _ => ys ≤ l.g.ymax
    | .addWr ys _ _ _ => ys ≤ l.g.ymax
    | .attRd ys _ _ _ _ _ => ys ≤ l.g.ymax
    | .attWr ys _ _ _ _ _ _ => ys ≤ l.g.ymax) ∨
  (l.g.dx ≤ 0 ∧ match l.pc with
    | .clear _ => l.g.y0 ≤ l.g.ymax ∧ (l.g.row l.g.y0).x0 ≤ (l.g.row l.g.y0).xmax
    | .outer ys => ys ≤ l.g.ymax ∧ (l.g.row ys).x0 ≤ (l.g.row ys).xmax
    | .inner ys xs => xs ≤ (l.g.row ys).xmax
    | .addRd ys xs _ _ => xs ≤ (l.g.row ys).xmax
    | .addWr ys xs _ _ => xs ≤ (l.g.row ys).xmax
    | .attRd ys xs _ _ _ _ => xs ≤ (l.g.row ys).xmax
    | .attWr ys xs _ _ _ _ _ => xs ≤ (l.g.row ys).xmax)

theorem Kern.entry_trapped (k : Kern ℝ) (p : Par ℝ) (xo yo zo : ℝ) (h : k.Endless p) :
    (k.entry p xo yo zo).Trapped := by
  obtain ⟨hy, h⟩ := (k.endless_geo p xo yo zo).mp h
  rcases h with ⟨hs, hd⟩ | ⟨hd, hx⟩
  · refine Or.inl ⟨hs, hd, ?_⟩
    simp only [Kern.entry]
    cases k.clears <;> exact hy
  · refine Or.inr ⟨hd, ?_⟩
    simp only [Kern.entry]
    cases k.clears <;> exact ⟨hy, hx⟩

theorem KLoc.trapped_step (nt : ℕ) (ty : IdxTy) (level : ErrorLevel) (att : Option (AttResp ℝ))
    (hl : oobErr level ≠ .outOfBounds) (l : KLoc ℝ) (h : l.Trapped) :
    (kernStep nt ty level att l).Keeps KLoc.Trapped := by
  obtain ⟨g, sg, e, pc⟩ := l
  rcases h with ⟨hs, hd, hp⟩ | ⟨hd, hp⟩
  · simp only at hs hd hp
    subst hs
    cases pc with
    | clear i =>
      simp only [kernStep]
      by_cases hi : i < nt
      · simp only [if_pos hi]; exact Or.inl ⟨rfl, hd, hp⟩
      · simp only [if_neg hi]; exact Or.inl ⟨rfl, hd, hp⟩
    | outer ys =>
      have : le ys g.ymax = true := by simpa using hp
      simp only [kernStep, this, if_true]
      exact Or.inl ⟨rfl, hd, hp⟩
    | inner ys xs =>
      simp only [kernStep]
      by_cases hx : le xs (g.row ys).xmax = true
      · simp only [if_pos hx]
        cases castIdx ty (rint ((g.row ys).pt xs).arg) with
        | ub e => trivial
        | fuel => trivial
        | ok it =>
          simp only
          by_cases hin : it < (nt : Int) ∧ it ≥ 0
          · simp only [if_pos hin]
            cases att <;> exact Or.inl ⟨rfl, hd, hp⟩
          · simp only [if_neg hin, if_neg hl]
            exact Or.inl ⟨rfl, hd, hp⟩
      · simp only [if_neg hx]
        refine Or.inl ⟨rfl, hd, ?_⟩
        simp only [r_add]
        simp only at hp
        linarith
    | addRd ys xs it ai => exact fun x => Or.inl ⟨rfl, hd, hp⟩
    | addWr ys xs it x => exact Or.inl ⟨rfl, hd, hp⟩
    | attRd ys xs r it ai i =>
      simp only [kernStep]
      by_cases hi : i < nt
      · simp only [if_pos hi]; exact fun x => Or.inl ⟨rfl, hd, hp⟩
      · simp only [if_neg hi]; exact Or.inl ⟨rfl, hd, hp⟩
    | attWr ys xs r it ai i x => exact Or.inl ⟨rfl, hd, hp⟩
  · simp only at hd hp
    have hmove : ∀ ys xs : ℝ, xs ≤ (g.row ys).xmax → xs + g.dx ≤ (g.row ys).xmax := by
      intro ys xs h; linarith
    cases pc with
    | clear i =>
      simp only [kernStep]
      by_cases hi : i < nt
      · simp only [if_pos hi]; exact Or.inr ⟨hd, hp⟩
      · simp only [if_neg hi]
        cases sg
        · exact Or.inr ⟨hd, hp⟩
        · exact Or.inr ⟨hd, hp.2⟩
    | outer ys =>
      have : le ys g.ymax = true := by simpa using hp.1
      simp only [kernStep, this, if_true]
      exact Or.inr ⟨hd, hp.2⟩
    | inner ys xs =>
      have hx : le xs (g.row ys).xmax = true := by simpa using hp
      simp only [kernStep, hx, if_true]
      cases castIdx ty (rint ((g.row ys).pt xs).arg) with
      | ub e => trivial
      | fuel => trivial
      | ok it =>
        simp only
        by_cases hin : it < (nt : Int) ∧ it ≥ 0
        · simp only [if_pos hin]
          cases att <;> exact Or.inr ⟨hd, hp⟩
        · simp only [if_neg hin, if_neg hl]
          exact Or.inr ⟨hd, by simpa using hmove _ _ hp⟩
    | addRd ys xs it ai => exact fun x => Or.inr ⟨hd, hp⟩
    | addWr ys xs it x => exact Or.inr ⟨hd, by simpa using hmove _ _ hp⟩
    | attRd ys xs r it ai i =>
      simp only [kernStep]
      by_cases hi : i < nt
      · simp only [if_pos hi]; exact fun x => Or.inr ⟨hd, hp⟩
      · simp only [if_neg hi]; exact Or.inr ⟨hd, by simpa using hmove _ _ hp⟩
    | attWr ys xs r it ai i x => exact Or.inr ⟨hd, hp⟩

/-- C12: a call whose sampling loops do not end never returns, at any error level but 'stop': whatever
the number of workers and the schedule, and however often CTRL-C is pressed, no worker that has a point
to compute ever ends. -/
theorem C12_never_returns (D : SirCall ℝ) (m : Buf ℝ)
    (hl : D.level = .ignore ∨ D.level = .warn ∨ D.level = .none) (he : D.k.Endless D.p)
    (nth : ℕ) (as : List Act) (s : Sys ℝ (KLoc ℝ))
    (hx : exec D.task as (initSys D.No nth m) = .ok s) :
    (∀ w, w < nth → rangeStart D.No nth w < rangeStop D.No nth w → ¬ s.isDone w) ∧
    (1 ≤ nth → 1 ≤ D.No → ¬ s.allDone nth) := by
  have hl' : oobErr D.level ≠ .outOfBounds := by
    rcases hl with h | h | h <;> rw [h] <;> simp [oobErr]
  have key : ∀ w, w < nth → rangeStart D.No nth w < rangeStop D.No nth w → ¬ s.isDone w := by
    intro w hw hr
    refine Drv.never_ends D.drv KLoc.Trapped ?_ ?_ nth m w hw hr as s hx
    · intro n l _ hb
      simp only [SirCall.drv] at hb
      cases hi : D.inputs n with
      | ub e => rw [hi] at hb; simp [Outcome.map] at hb
      | fuel => rw [hi] at hb; simp [Outcome.map] at hb
      | ok q =>
        obtain ⟨xo, yo, zo, d⟩ := q
        rw [hi] at hb
        simp only [Outcome.map, Outcome.ok.injEq] at hb
        subst hb
        refine Kern.entry_trapped _ _ _ _ _ ?_
        cases hk : D.k <;> rw [hk] at he <;> exact he
    · intro n l hI
      exact KLoc.trapped_step D.nt D.ty D.level D.att hl' l hI
  refine ⟨key, fun h1 hN hall => ?_⟩
  obtain ⟨w, hw, ha, hb⟩ := owner_exists D.No nth 0 h1 hN
  exact key w hw (lt_of_le_of_lt ha hb) (hall w hw)

-- a rectangle sampled with a negative step: one point, level 'ignore'
example : (Kern.rect (1 : ℝ) 10 10).Endless
    { dx := -1, dy := 1, dt := 1, delay := 0, v := 1, cp := 1000 } := by
  simp only [Kern.Endless]; norm_num

/-- Inside an array function whose element's loops do not end. -/
def ALoc.Trapped (l : ALoc ℝ) : Prop :=
  match l.pc with
  | .clear _ => True
  | .dims => True
  | .next _ n _ => n = 0
  | .run _ _ k => k.Trapped

/-- C12 for array functions with at least one element. -/
theorem C12_array_never_returns (D : ArrCall ℝ) (m : Buf ℝ)
    (hl : D.level = .ignore ∨ D.level = .warn ∨ D.level = .none) (he : (D.K.kern 1).Endless D.p)
    (hnum : 1 ≤ D.A.num) (nth : ℕ) (as : List Act) (s : Sys ℝ (ALoc ℝ))
    (hx : exec D.drv.task as (initSys D.No nth m) = .ok s) :
    (∀ w, w < nth → rangeStart D.No nth w < rangeStop D.No nth w → ¬ s.isDone w) ∧
    (1 ≤ nth → 1 ≤ D.No → ¬ s.allDone nth) := by
  have hl' : oobErr D.level ≠ .outOfBounds := by
    rcases hl with h | h | h <;> rw [h] <;> simp [oobErr]
  have key : ∀ w, w < nth → rangeStart D.No nth w < rangeStop D.No nth w → ¬ s.isDone w := by
    intro w hw hr
    refine Drv.never_ends D.drv ALoc.Trapped ?_ ?_ nth m w hw hr as s hx
    · intro n l _ hb
      simp only [ArrCall.drv] at hb
      cases hi : D.inputs n with
      | ub e => rw [hi] at hb; simp [Outcome.map] at hb
      | fuel => rw [hi] at hb; simp [Outcome.map] at hb
      | ok q =>
        rw [hi] at hb
        simp only [Outcome.map, Outcome.ok.injEq] at hb
        subst hb
        simp only [ArrCall.entry, ALoc.Trapped]
        cases D.K.clears D.att <;> trivial
    · intro n l hI
      obtain ⟨xo, yo, zo, d, pc⟩ := l
      show (D.step _).Keeps _
      cases pc with
      | clear i =>
        simp only [ArrCall.step]
        by_cases hi : i < D.nt
        · rw [if_pos hi]; trivial
        · rw [if_neg hi]; trivial
      | dims =>
        simp only [ArrCall.step]
        cases maxDimArr D.A.G D.A.num with
        | ok d => exact rfl
        | ub e => trivial
        | fuel => trivial
      | next d n err =>
        have h0 : n = 0 := hI
        subst h0
        simp only [ArrCall.step]
        rw [if_pos (by omega)]
        cases D.A.elem d D.p.cp 0 with
        | ub e => trivial
        | fuel => trivial
        | ok e =>
          refine Kern.entry_trapped _ _ _ _ _ ?_
          cases hk : D.K <;> rw [hk] at he <;> exact he
      | run d n k =>
        have h1 := KLoc.trapped_step D.nt D.ty D.level D.att hl' k hI
        simp only [ArrCall.step]
        cases hs : kernStep D.nt D.ty D.level D.att k <;> rw [hs] at h1
        · exact h1
        · exact h1.elim
        · trivial
        · exact h1
        · exact h1
  refine ⟨key, fun h1 hN hall => ?_⟩
  obtain ⟨w, hw, ha, hb⟩ := owner_exists D.No nth 0 h1 hN
  exact key w hw (lt_of_le_of_lt ha hb) (hall w hw)

end Dream
