import Verif.Conc.Basic
import Verif.Value.Model
/-!
# The hash code that a string keeps

A string is immutable and shared without locks, but `HashCode` writes to it: internal/string.go:591-596.  Here any number of goroutines call
`HashCode` of one string, each any number of times.

The memory is a parameter: what a read may find.  `Seq` is the newest write, so that executions are interleavings.  `Weak` is what "The Go
Memory Model" allows to a read that races with writes, in the version of 2014 that the Go of this code (1.13) has: the read observes a write
that does not happen after it and that is not overwritten by one that happens between the two.  Goroutines that share nothing but the string
order only their own actions.  (An `int` is one word.  A write that follows in the order of the steps is not found here; to allow it would
change nothing, because all writes write the same.)
-/
set_option autoImplicit false
namespace Verif.Conc.StrHash
open Verif.Value

/-- Where a goroutine is in `HashCode` -/
inductive PC where
  /-- not in a call -/
  | idle
  /-- before the read of `if v.h == 0`, string.go:592 -/
  | test
  /-- before `v.h = util.StringHash(v.s)`, string.go:593 -/
  | store
  /-- before the read of `return v.h`, string.go:595 -/
  | load
  deriving DecidableEq

structure St where
  pc : Nat → PC
  /-- the writes to `v.h` with the goroutine, newest first -/
  writes : List (Nat × BitVec 64)
  /-- what calls have returned, newest first -/
  ret : List (Nat × BitVec 64)

/-- What a read of `v.h` in a goroutine may find; `h0` is what was there when the string was handed to the goroutines. -/
abbrev Memory := BitVec 64 → List (Nat × BitVec 64) → Nat → BitVec 64 → Prop

/-- The newest write -/
def Seq : Memory := fun h0 ws _ x => x = (ws.head?.map Prod.snd).getD h0

/-- The newest write of the goroutine itself, or what was there if it has not written; or any write of another goroutine. -/
def Weak : Memory := fun h0 ws i x =>
  x = ((ws.find? fun w => w.1 == i).map Prod.snd).getD h0 ∨ ∃ j, j ≠ i ∧ (j, x) ∈ ws

/-- One step of goroutine `i` -/
inductive Step (M : Memory) (h0 : BitVec 64) (s : Str) : St → St → Prop where
  | call (σ : St) (i : Nat) (h : σ.pc i = .idle) : Step M h0 s σ { σ with pc := upd σ.pc i .test }
  | test (σ : St) (i : Nat) (x : BitVec 64) (h : σ.pc i = .test) (hx : M h0 σ.writes i x) :
    Step M h0 s σ { σ with pc := upd σ.pc i (if x = 0 then .store else .load) }
  | store (σ : St) (i : Nat) (h : σ.pc i = .store) :
    Step M h0 s σ { σ with pc := upd σ.pc i .load, writes := (i, strHash s) :: σ.writes }
  | load (σ : St) (i : Nat) (x : BitVec 64) (h : σ.pc i = .load) (hx : M h0 σ.writes i x) :
    Step M h0 s σ { pc := upd σ.pc i .idle, writes := σ.writes, ret := (i, x) :: σ.ret }

/-- No goroutine has called yet. -/
def start : St := ⟨fun _ => .idle, [], []⟩

/-- The states that executions reach -/
def Reach (M : Memory) (h0 : BitVec 64) (s : Str) (σ : St) : Prop := Relation.ReflTransGen (Step M h0 s) start σ

end Verif.Conc.StrHash
