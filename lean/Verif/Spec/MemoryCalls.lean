import Verif.Spec.Memory
import Verif.Model.MemoryAlgos

/-!
# Calls on the heap: what a source model may do, how a call ends, histories of calls
-/

namespace Torchiva
namespace Spec

open Memory

variable {C F N : ℕ} {σ : Type}

/-- The source model on the heap is well behaved: it returns the weights that the mathematical source model prescribes,
modifies no tensor that exists already, and the backward pass runs through it. -/
def ActsAs (m : MemModel σ F N) (model : SourceModel σ F N) : Prop :=
  ∀ (s : ℕ) (ms : σ) (Y : Ref (I3 s F N)) (h : Heap), Exists h Y → BackwardRuns h →
    ∃ r h', m s ms Y h = (.ok (r, (model s ms fun k f n => h.read Y (k, f, n)).2), h') ∧
      Untouched h h' ∧ BackwardRuns h' ∧ Exists h' r ∧
      ∀ k f n, h'.readR r (k, f, n) = (model s ms fun k f n => h.read Y (k, f, n)).1 k f n

/-- The same for a source model of WPE, which returns one weight per bin. -/
def ActsAsWpe (m : MemWpeModel σ C F N) (model : WpeModel σ C F N) : Prop :=
  ∀ (ms : σ) (Y : Ref (I3 C F N)) (h : Heap), Exists h Y → BackwardRuns h →
    ∃ r h', m ms Y h = (.ok (r, (model ms fun k f n => h.read Y (k, f, n)).2), h') ∧
      Untouched h h' ∧ BackwardRuns h' ∧ Exists h' r ∧
      ∀ f n, h'.readR r (f, n) = (model ms fun k f n => h.read Y (k, f, n)).1 f n

/-- WPE has no source model, or a well-behaved one. -/
def ActsAsWpeOption (m : Option (MemWpeModel σ C F N)) (model : Option (WpeModel σ C F N)) : Prop :=
  match m, model with
  | none, none => True
  | some m, some model => ActsAsWpe m model
  | _, _ => False

/-- The call `x` ends as `y` says: with the same exception, or by returning something that is related to `y`'s result by
`same` (which looks at the heap after the call). -/
def EndsAs {α β : Type} (x : Except Err α × Heap) (y : Except Err β) (same : α → Heap → β → Prop) : Prop :=
  match y with
  | .ok b => ∃ a, x.1 = .ok a ∧ same a x.2 b
  | .error e => x.1 = .error e

/-- The tensor holds this signal. -/
def Holds {s F N : ℕ} (h : Heap) (Y : Ref (I3 s F N)) (y : Sig s F N) : Prop := ∀ c f n, h.read Y (c, f, n) = y c f n

/-- The signal in a tensor. -/
def signal {s F N : ℕ} (h : Heap) (X : Ref (I3 s F N)) : Sig s F N := fun c f n => h.read X (c, f, n)

/-- One step of a user's program: a call to one of the algorithms on an existing tensor (which may raise, and the user
may catch that), or an operation of their own that makes a new tensor. -/
inductive UserStep : Heap → Heap → Prop
  | operation {ι : Type} [Encodable ι] {h : Heap} (ids : List ℕ) (f : ι → ℂ) : (∀ i ∈ ids, i < h.next) →
      UserStep h (h.out ids f)
  | tiss {h : Heap} {C F N : ℕ} {σ : Type} (p : TissParams) (nSrc : Option ℕ) (X : Ref (I3 C F N)) (m : MemModel σ F N)
      (model : SourceModel σ F N) (reset : σ → σ) (ms : σ) : Exists h X → ActsAs m model →
      UserStep h (tissForwardMem p nSrc X m reset ms h).2
  | ip {h : Heap} {s C F N : ℕ} {σ : Type} (hs : s ≤ C) (p : IpParams) (X : Ref (I3 C F N)) (m : MemModel σ F N)
      (model : SourceModel σ F N) (reset : σ → σ) (ms : σ) : Exists h X → ActsAs m model →
      UserStep h (ipMem hs p X m reset ms h).2
  | ip2 {h : Heap} {F N : ℕ} {σ : Type} (nIter : ℕ) (mic : Option (Fin 2)) (eps : ℝ) (X : Ref (I3 2 F N))
      (m : MemModel σ F N) (model : SourceModel σ F N) (reset : σ → σ) (ms : σ) : Exists h X → ActsAs m model →
      UserStep h (ip2Mem nIter mic eps X m reset ms h).2
  | wpe {h : Heap} {C F N : ℕ} {σ : Type} (nIter T D : ℕ) (eps : ℝ) (X : Ref (I3 C F N))
      (m : Option (MemWpeModel σ C F N)) (model : Option (WpeModel σ C F N)) (ms : σ) : Exists h X →
      ActsAsWpeOption m model → UserStep h (wpeMem nIter T D eps X m ms h).2
  | five {h : Heap} {C F N : ℕ} [NeZero C] {σ : Type} (solver : Matrix (Fin C) (Fin C) ℂ → EigRes (Fin C)) (nIter : ℕ)
      (ref : Fin C) (nPower : Option ℕ) (X : Ref (I3 C (F + 1) N)) (m : MemModel σ F N) (model : SourceModel σ F N)
      (reset : σ → σ) (ms : σ) : Exists h X → ActsAs m model →
      UserStep h (fiveMem solver nIter ref nPower X m reset ms h).2

/-- Any number of steps, one after the other. -/
inductive Program : Heap → Heap → Prop
  | done (h : Heap) : Program h h
  | step {a b c : Heap} : UserStep a b → Program b c → Program a c

end Spec
end Torchiva
