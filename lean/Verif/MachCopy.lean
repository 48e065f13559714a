import Verif.MachConv
import Verif.CopyP

/-
Machine integers in copy_p and add_p.
-/

namespace Dream
open Arith

variable {F : Type} [Arith F]

namespace CopyCall

/-- `r+(k+n)*A_M` in the index type, extra_src/mex_copy_p.cc 93, extra_src/oct_copy_p.cc 96, extra_src/oct_add_p.cc 95
(`r` and `k` are not negative). -/
def machAt (C : CopyCall F) (ty : IdxTy) (n : Nat) : Outcome Nat :=
  (ty.norm (C.k.toNat + n)).bind fun c => (ty.norm (c * C.aM)).bind fun o => ty.norm (C.r.toNat + o)

/-- `0+n*B_M` in the index type, extra_src/mex_copy_p.cc 93, extra_src/oct_copy_p.cc 96, extra_src/oct_add_p.cc 95. -/
def machFrom (C : CopyCall F) (ty : IdxTy) (n : Nat) : Outcome Nat := ty.norm (n * C.bM)

/-- The number of entries that memcpy copies: `len*sizeof(double)` bytes, a product in the type `size_t`,
extra_src/mex_copy_p.cc 93, extra_src/oct_copy_p.cc 96. -/
def machCount (C : CopyCall F) : Nat := C.len.toNat * 8 % 2 ^ 64 / 8

/-- Work for column `n` with machine integers: one memcpy, extra_src/mex_copy_p.cc 91-100, extra_src/oct_copy_p.cc
94-103, or a loop that computes both indices for every entry, extra_src/oct_add_p.cc 92-103.  Addresses in `A` are
relative to `&A[n*A_M]` (exact numbers: the code adds the index to the pointer `A`). -/
def machProg (C : CopyCall F) (ty : IdxTy) (n : Nat) : Prog F SIRError :=
  match C.op with
  | .copy =>
    if C.len < 0 then .bad .oob
    else (Prog.lift (C.machAt ty n)).bind fun a => (Prog.lift (C.machFrom ty n)).bind fun b =>
      (Prog.forN (fun l _ => (Prog.lift (C.B.read ((l + b : Nat) : Int))).bind fun v =>
        .wr (((a + l : Nat) : Int) - ((n * C.aM : Nat) : Int)) v (.ret ())) C.machCount 0 ()).bind fun _ => .ret .none
  | .add =>
    (Prog.forN (fun l _ =>
      (Prog.lift (C.machAt ty n)).bind fun a => (Prog.lift (ty.norm (a + l))).bind fun i =>
      (Prog.lift (C.machFrom ty n)).bind fun b => (Prog.lift (ty.norm (l + b))).bind fun j =>
      (Prog.lift (C.B.read (j : Int))).bind fun v =>
      .rd ((i : Int) - ((n * C.aM : Nat) : Int)) fun x =>
      .wr ((i : Int) - ((n * C.aM : Nat) : Int)) (x +. v) (.ret ())) C.len.toNat 0 ()).bind fun _ => .ret .none

/-- What the workers run, with machine integers. -/
def machTask (C : CopyCall F) (ty : IdxTy) : Task F (Prog F SIRError) where
  begin := fun n => .ok (C.machProg ty n)
  micro := fun n l m => l.eff.onBuf (n * C.aM) m

end CopyCall

end Dream
