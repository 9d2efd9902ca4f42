import Verif.Conc.Race.Model
import Verif.Plugin.Model

/-!
# Calls of registries without locks, access by access (for C143)

A call is a program that reads and writes the variables of one object.  Several threads run such programs on
the same object; a schedule says which thread does its next access.  There are no semaphores: the
classes modelled here have none.  `V` are the variables of the object, `Val v` the values of `v`.
-/
namespace Verif.Registry
open Race

variable {V : Type} {Val : V → Type} {A B ι : Type}

/-- What a call still has to do.  `fresh` is `new` in a plugin library: the allocator is thread safe (C++11 18.6.1.4), the
objects it returns are numbered, and it touches no variable of the registry. -/
inductive Prog (Val : V → Type) (A : Type) where
  | ret (a : A)
  | rd (v : V) (k : Val v → Prog Val A)
  | wr (v : V) (x : Val v) (p : Prog Val A)
  | fresh (k : Nat → Prog Val A)

/-- First `p`, then `f` with its result. -/
def Prog.bind (p : Prog Val A) (f : A → Prog Val B) : Prog Val B :=
  match p with
  | .ret a => f a
  | .rd v k => .rd v fun x => (k x).bind f
  | .wr v x q => .wr v x (q.bind f)
  | .fresh k => .fresh fun n => (k n).bind f

/-- One call after the other; the results in this order. -/
def inOrder {C : Type} (call : C → Prog Val A) : List C → Prog Val (List A)
  | [] => .ret []
  | c :: cs => (call c).bind fun a => (inOrder call cs).bind fun as => .ret (a :: as)

/-- The shared object, the number of the next new object, and what the threads still have to do. -/
structure World (ι : Type) (Val : V → Type) (A : Type) where
  mem : ∀ v, Val v
  next : Nat
  prog : ι → Prog Val A

section
variable [DecidableEq V] [DecidableEq ι]

/-- The object after an assignment to `v`. -/
def set (m : ∀ v, Val v) (v : V) (x : Val v) : ∀ v, Val v := fun u => if h : u = v then h ▸ x else m u

/-- The accesses of a call, its result and the object after it, when no other thread runs. -/
def alone : Prog Val A → (∀ v, Val v) → Nat → A × (∀ v, Val v) × Nat × List (Ev Empty V)
  | .ret a, m, n => (a, m, n, [])
  | .rd v k, m, n => let r := alone (k (m v)) m n; (r.1, r.2.1, r.2.2.1, .rd v :: r.2.2.2)
  | .wr v x p, m, n => let r := alone p (set m v x) n; (r.1, r.2.1, r.2.2.1, .wr v :: r.2.2.2)
  | .fresh k, m, n => alone (k n) m (n + 1)

/-- Thread `i` does its next access; `none` if it is finished. -/
def World.step (w : World ι Val A) (i : ι) : Option (List (ι × Ev Empty V) × World ι Val A) :=
  let upd (p : Prog Val A) : ι → Prog Val A := fun j => if j = i then p else w.prog j
  match w.prog i with
  | .ret _ => none
  | .rd v k => some ([(i, .rd v)], { w with prog := upd (k (w.mem v)) })
  | .wr v x p => some ([(i, .wr v)], { w with mem := set w.mem v x, prog := upd p })
  | .fresh k => some ([], { w with next := w.next + 1, prog := upd (k w.next) })

/-- Run the threads in the order of the schedule: the accesses that happened, with their threads. -/
def World.exec (w : World ι Val A) : List ι → Option (List (ι × Ev Empty V) × World ι Val A)
  | [] => some ([], w)
  | i :: is =>
    match w.step i with
    | none => none
    | some (e, w') => (w'.exec is).map fun r => (e ++ r.1, r.2)
end

end Verif.Registry
