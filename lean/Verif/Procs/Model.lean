import Mathlib.Data.Fin.Basic
import Mathlib.Data.Rat.Defs
import Mathlib.Logic.Function.Basic
import Mathlib.Data.List.FinRange

/-!
# Model of the processes of a parallel run

fluidsim runs with MPI: the same program on `n` processes, which exchange messages (`mpi.comm.Send`, `Recv`), take part in
collective operations (`bcast`, `reduce`, `gather`, `allreduce`, `allgather`, `barrier`) and share the file system. Nothing
fixes the relative speeds of the processes.

A program of one process is a tree (`Prog`): the code between two communications is the function which gives the next node.
The semantics (`Step`) interleaves the processes. A message is exchanged when the sender and the receiver are both there
(the most demanding of the behaviours allowed by MPI for `Send`). A process can leave a collective operation as soon as the
processes whose data it needs have entered it: for `bcast` the root, for the root of `reduce` and `gather` all processes, for the
other processes of `reduce` and `gather` none, for the other operations all processes (the least synchronising behaviour
allowed by MPI, so that all the interleavings are covered).
-/

namespace Verif.Procs

/-- The data which are exchanged. -/
inductive Val
  | unit
  | bool (b : Bool)
  | num (q : ℚ)
  | int (i : ℤ)
  | arr (l : List ℚ)
  | names (l : List (List Char))
  | other (code : ℕ)
  deriving DecidableEq, Inhabited

/-- The collective operations. -/
inductive Kind (n : ℕ)
  | bcast (root : Fin n)
  | reduce (root : Fin n)
  | gather (root : Fin n)
  | allreduce
  | allgather
  | barrier
  deriving DecidableEq

/-- Whether process `i` needs the data of process `j` to leave the operation. -/
def Kind.needs {n : ℕ} : Kind n → Fin n → Fin n → Bool
  | .bcast r, _, j => j = r
  | .reduce r, i, _ => i = r
  | .gather r, i, _ => i = r
  | .allreduce, _, _ => true
  | .allgather, _, _ => true
  | .barrier, _, _ => true

/-- The program of a process. `acc f k`: one access to the file system, changed by `f`; `k` is given the file system before the
access. `coll c v k`: a collective operation with the contribution `v`; `k` is given the contributions which the process
receives. `wait`: inside the operation. `err`: an exception ends the process. -/
inductive Prog (n : ℕ) (S : Type) (α : Type) : Type
  | ret (a : α)
  | err (text : String)
  | acc (f : S → S) (k : S → Prog n S α)
  | coll (c : Kind n) (v : Val) (k : (Fin n → Option Val) → Prog n S α)
  | wait (c : Kind n) (k : (Fin n → Option Val) → Prog n S α)
  | send (dst : Fin n) (tag : ℕ) (v : Val) (k : Prog n S α)
  | recv (src : Fin n) (tag : ℕ) (k : Val → Prog n S α)

namespace Prog

variable {n : ℕ} {S α β σ : Type}

/-- One piece of code after another; an exception stops the process. -/
def bind : Prog n S α → (α → Prog n S β) → Prog n S β
  | ret a, g => g a
  | err t, _ => err t
  | acc f k, g => acc f fun s => (k s).bind g
  | coll c v k, g => coll c v fun a => (k a).bind g
  | wait c k, g => wait c fun a => (k a).bind g
  | send d t v k, g => send d t v (k.bind g)
  | recv s t k, g => recv s t fun v => (k v).bind g

instance : Monad (Prog n S) where
  pure := ret
  bind := bind

/-- `for x in l` with a local state. -/
def loop : List β → (β → σ → Prog n S σ) → σ → Prog n S σ
  | [], _, s => ret s
  | x :: l, body, s => (body x s).bind (loop l body)

/-- `mpi.comm.bcast(v, root=r)`. -/
def bcast (r : Fin n) (v : Val) : Prog n S Val := coll (.bcast r) v fun a => ret ((a r).getD .unit)

/-- `mpi.comm.allreduce` and `allgather`: the contributions of all processes, in the order of the ranks. -/
def allgather (v : Val) : Prog n S (List Val) :=
  coll .allgather v fun a => ret ((List.finRange n).map fun i => (a i).getD .unit)

/-- `mpi.comm.allreduce` with the operation `op` on the list of the contributions. -/
def allreduce (op : List Val → Val) (v : Val) : Prog n S Val :=
  coll .allreduce v fun a => ret (op ((List.finRange n).map fun i => (a i).getD .unit))

/-- `mpi.comm.reduce` and `gather` on process `r`: `None` (`unit`) on the other processes. -/
def reduce (r : Fin n) (me : Fin n) (op : List Val → Val) (v : Val) : Prog n S Val :=
  coll (.reduce r) v fun a =>
    ret (if me = r then op ((List.finRange n).map fun i => (a i).getD .unit) else .unit)

/-- `mpi.comm.barrier()`. -/
def barrier : Prog n S PUnit := coll .barrier .unit fun _ => ret ⟨⟩

/-- `mpi.comm.Send(v, dest=d, tag=t)`. -/
def sendTo (d : Fin n) (t : ℕ) (v : Val) : Prog n S PUnit := send d t v (ret ⟨⟩)

/-- `mpi.comm.Recv(source=s, tag=t)`. -/
def recvFrom (s : Fin n) (t : ℕ) : Prog n S Val := recv s t ret

/-- An observation of the file system. -/
def look (g : S → α) : Prog n S α := acc id fun s => ret (g s)

/-- A change of the file system. -/
def change (f : S → S) : Prog n S PUnit := acc f fun _ => ret ⟨⟩

end Prog

/-- The state of a parallel run: the file system, what remains to do for each process, and the collective operations which each
process has entered, with its contributions. -/
structure Config (n : ℕ) (S α : Type) where
  fs : S
  p : Fin n → Prog n S α
  log : Fin n → List (Kind n × Val)

/-- The processes at the beginning. -/
def start {n : ℕ} {S α : Type} (fs : S) (p : Fin n → Prog n S α) : Config n S α := ⟨fs, p, fun _ => []⟩

/-- What process `i` receives from the operation `c` which it has entered last: the contributions which it needs, all of them given
for this operation. -/
def Ready {n : ℕ} (log : Fin n → List (Kind n × Val)) (i : Fin n) (c : Kind n) (ans : Fin n → Option Val) : Prop :=
  ∀ j, if c.needs i j then ∃ v, (log j)[(log i).length - 1]? = some (c, v) ∧ ans j = some v else ans j = none

/-- One step of the run. -/
inductive Step {n : ℕ} {S α : Type} : Config n S α → Config n S α → Prop
  | acc (fs p log) (i : Fin n) (f : S → S) (k) (h : p i = .acc f k) :
      Step ⟨fs, p, log⟩ ⟨f fs, Function.update p i (k fs), log⟩
  | enter (fs p log) (i : Fin n) (c v k) (h : p i = .coll c v k) :
      Step ⟨fs, p, log⟩ ⟨fs, Function.update p i (.wait c k), Function.update log i (log i ++ [(c, v)])⟩
  | leave (fs p log) (i : Fin n) (c k ans) (h : p i = .wait c k) (hr : Ready log i c ans) :
      Step ⟨fs, p, log⟩ ⟨fs, Function.update p i (k ans), log⟩
  | msg (fs p log) (i j : Fin n) (t v k k') (hi : p i = .send j t v k) (hj : p j = .recv i t k') :
      Step ⟨fs, p, log⟩ ⟨fs, Function.update (Function.update p i k) j (k' v), log⟩

/-- The states which can be reached. -/
inductive Reach {n : ℕ} {S α : Type} : Config n S α → Config n S α → Prop
  | refl (c) : Reach c c
  | step (a b c) (h : Reach a b) (hs : Step b c) : Reach a c

end Verif.Procs
