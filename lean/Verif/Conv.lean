import Verif.Prog

/-
Time domain convolution: extra_src/conv.cc and the column loop of conv_p
(extra_src/mex_conv_p.cc, extra_src/oct_conv_p.cc).
-/

namespace Dream
open Arith

variable {F : Type} [Arith F]

/-- `for (i=0; i < k; i++) zr[i]=0.0;`, extra_src/conv.cc 39-41. -/
def zeroFill (k : Nat) : Prog F Unit :=
  Prog.forN (fun i _ => .wr (i : Int) (lit 0) (.ret ())) k 0 ()

/-- The double loop `zr[i+j] op= xr[i] * yr[j]`, extra_src/conv.cc 49-53 (`+=`), 60-64 (`-=`),
70-74 (`=`).  `x i` and `y j` are the reads `xr[i]` and `yr[j]`. -/
def convLoop (op : F → F → F) (x y : Nat → Outcome F) (nx ny : Nat) : Prog F Unit :=
  Prog.forN (fun i _ =>
    Prog.forN (fun j _ =>
      (Prog.lift (x i)).bind fun xi =>
      (Prog.lift (y j)).bind fun yj =>
      .rd ((i + j : Nat) : Int) fun z => .wr ((i + j : Nat) : Int) (op z (xi *. yj)) (.ret ()))
      ny 0 ()) nx 0 ()

/-- `conv`, extra_src/conv.cc 33-78.  The length `(nx+ny)-1` is a natural number here: for
`nx = ny = 0` the source has -1 (signed) or the largest index (unsigned). -/
def conv (x y : Nat → Outcome F) (nx ny : Nat) (mode : ConvMode) : Prog F Unit :=
  match mode with
  | .equ => (zeroFill (nx + ny - 1)).bind fun _ => convLoop Arith.add x y nx ny
  | .sum => convLoop Arith.add x y nx ny
  | .neg => convLoop Arith.sub x y nx ny

/-- Sample `k` of the loop nest, accumulated in loop order onto `z`. -/
def convAcc (op : F → F → F) (x y : Nat → F) (nx ny : Nat) (z : F) (k : Nat) : F :=
  (List.range nx).foldl (fun z i => if i ≤ k ∧ k - i < ny then op z (x i *. y (k - i)) else z) z

/-- What the column contains after `conv`. -/
def convCol (mode : ConvMode) (x y : Nat → F) (nx ny : Nat) (c : Nat → F) (k : Nat) : F :=
  match mode with
  | .equ => convAcc Arith.add x y nx ny (lit 0) k
  | .sum => convAcc Arith.add x y nx ny (c k) k
  | .neg => convAcc Arith.sub x y nx ny (c k) k

theorem zeroFill_run (len k : Nat) (hk : k ≤ len) (c : Nat → F) :
    (zeroFill k : Prog F Unit).runCol len c = .ok ((fun q => if q < k then lit 0 else c q), ()) :=
  Prog.forN_pointwise len k _ (fun _ _ => lit 0)
    (by
      intro i hi c
      simp only [Prog.runCol]
      rw [if_pos (by omega)]
      simp) c

theorem convInner_run (op : F → F → F) (xi : F) (y : Nat → F) (yr : Nat → Outcome F) (ny len i : Nat)
    (hlen : ∀ j, j < ny → i + j < len) (hy : ∀ j, j < ny → yr j = .ok (y j)) (c : Nat → F) :
    (Prog.forN (fun j (_ : Unit) => (Prog.lift (.ok xi)).bind fun xi =>
        (Prog.lift (yr j)).bind fun yj =>
        .rd ((i + j : Nat) : Int) fun z => .wr ((i + j : Nat) : Int) (op z (xi *. yj)) (.ret ()))
      ny 0 ()).runCol len c =
      .ok ((fun q => if i ≤ q ∧ q - i < ny then op (c q) (xi *. y (q - i)) else c q), ()) := by
  obtain ⟨c', s', h1, h2⟩ := Prog.forN_runCol len
    (fun j (_ : Unit) => (Prog.lift (.ok xi)).bind fun xi =>
        (Prog.lift (yr j)).bind fun yj =>
        .rd ((i + j : Nat) : Int) fun z => .wr ((i + j : Nat) : Int) (op z (xi *. yj)) (.ret ()))
    (fun j c' _ => c' = fun q => if i ≤ q ∧ q - i < j then op (c q) (xi *. y (q - i)) else c q)
    ny 0 () c
    (by
      intro j _ hj c1 _ hc1
      have hj' : j < ny := by omega
      have hl := hlen j hj'
      rw [hy j hj']
      refine ⟨fun q => if q = i + j then op (c1 (i + j)) (xi *. y j) else c1 q, (), ?_, ?_⟩
      · simp only [Prog.lift, Prog.bind, Prog.runCol]
        rw [if_pos (by omega), if_pos (by omega)]
        simp only [Int.toNat_natCast]
      · subst hc1
        funext q
        simp only
        by_cases hq : q = i + j
        · subst hq
          rw [if_pos rfl, if_neg (by omega), if_pos (by omega), Nat.add_sub_cancel_left]
        · rw [if_neg hq]
          by_cases h3 : i ≤ q ∧ q - i < j
          · rw [if_pos h3, if_pos (by omega)]
          · rw [if_neg h3, if_neg (by omega)])
    (by funext q; rw [if_neg (by omega)])
  rw [h1, h2, Nat.zero_add]

theorem convLoop_run (op : F → F → F) (x y : Nat → F) (xr yr : Nat → Outcome F) (nx ny len : Nat)
    (hlen : nx + ny ≤ len + 1) (hx : ∀ i, i < nx → xr i = .ok (x i))
    (hy : ∀ j, j < ny → yr j = .ok (y j)) (c : Nat → F) :
    (convLoop op xr yr nx ny).runCol len c =
      .ok ((fun k => convAcc op x y nx ny (c k) k), ()) := by
  obtain ⟨c', s', h1, h2⟩ := Prog.forN_runCol len
    (fun i (_ : Unit) => Prog.forN (fun j _ =>
      (Prog.lift (xr i)).bind fun xi =>
      (Prog.lift (yr j)).bind fun yj =>
      .rd ((i + j : Nat) : Int) fun z => .wr ((i + j : Nat) : Int) (op z (xi *. yj)) (.ret ()))
      ny 0 ())
    (fun i c' _ => c' = fun k => convAcc op x y i ny (c k) k) nx 0 () c
    (by
      intro i _ hi c1 _ hc1
      rw [hx i (by omega)]
      refine ⟨_, (), convInner_run op (x i) y yr ny len i (fun j hj => by omega) hy c1, ?_⟩
      subst hc1
      funext k
      simp only [convAcc, List.range_succ, List.foldl_append, List.foldl_cons, List.foldl_nil])
    (by funext k; rfl)
  unfold convLoop
  rw [h1, h2, Nat.zero_add]

/-- `conv` on a column of length `nx+ny-1`, for an arbitrary arithmetic. -/
theorem conv_run (x y : Nat → F) (xr yr : Nat → Outcome F) (nx ny : Nat) (mode : ConvMode)
    (hx : ∀ i, i < nx → xr i = .ok (x i))
    (hy : ∀ j, j < ny → yr j = .ok (y j)) (c : Nat → F) :
    ∃ c', (conv xr yr nx ny mode).runCol (nx + ny - 1) c = .ok (c', ()) ∧
      ∀ k, k < nx + ny - 1 → c' k = convCol mode x y nx ny c k := by
  cases mode with
  | equ =>
    simp only [conv]
    rw [Prog.runCol_bind, zeroFill_run _ _ (Nat.le_refl _)]
    simp only [Outcome.bind]
    rw [convLoop_run Arith.add x y xr yr nx ny (nx + ny - 1) (by omega) hx hy]
    refine ⟨_, rfl, fun k hk => ?_⟩
    simp only [convCol]
    rw [if_pos hk]
  | sum =>
    simp only [conv]
    rw [convLoop_run Arith.add x y xr yr nx ny (nx + ny - 1) (by omega) hx hy]
    exact ⟨_, rfl, fun k hk => rfl⟩
  | neg =>
    simp only [conv]
    rw [convLoop_run Arith.sub x y xr yr nx ny (nx + ny - 1) (by omega) hx hy]
    exact ⟨_, rfl, fun k hk => rfl⟩

theorem conv_safe (x y : Nat → F) (xr yr : Nat → Outcome F) (nx ny : Nat) (mode : ConvMode)
    (hx : ∀ i, i < nx → xr i = .ok (x i))
    (hy : ∀ j, j < ny → yr j = .ok (y j)) :
    (conv xr yr nx ny mode).Safe (nx + ny - 1) (fun _ => True) := by
  have hl : ∀ op : F → F → F, (convLoop op xr yr nx ny).Safe (nx + ny - 1) (fun _ => True) := by
    intro op
    refine Prog.Safe.forN (P := fun _ _ => True) nx 0 () ?_ trivial
    intro i _ hi _ _
    refine Prog.Safe.forN (P := fun _ _ => True) ny 0 () ?_ trivial
    intro j _ hj _ _
    rw [hx i (by omega), hy j (by omega)]
    exact ⟨by omega, fun z => ⟨by omega, trivial⟩⟩
  cases mode with
  | equ =>
    refine Prog.Safe.bind (Q := fun _ => True) ?_ fun _ _ => hl _
    exact Prog.Safe.forN (P := fun _ _ => True) _ 0 () (fun i _ hi _ _ => ⟨by omega, trivial⟩) trivial
  | sum => exact hl _
  | neg => exact hl _

end Dream
