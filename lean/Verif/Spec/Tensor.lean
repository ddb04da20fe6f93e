import Verif.Model.TensorTIss
import Verif.Model.TensorAuxIva
import Verif.Model.TensorWpe

/-!
# Batches and their items

A tensor with leading (batch) dimensions is compared with the signals, matrices, ... of its items.
Indices are written last dimension first, as in the model: the entry of a tensor of shape
`batch + (p, q, r)` at batch index `β` and position `(i, j, k)` is `t.val (k :: j :: i :: β)`.
-/

namespace Torchiva

variable {α : Type}

/-- A tensor `(..., p)` with one vector per batch index. -/
structure Rep1 (b : Shape) (p : ℕ) (t : Ten α) (A : List ℕ → Fin p → α) : Prop where
  shape : t.shape = p :: b
  val : ∀ β, Inside β b → ∀ i (hi : i < p), t.val (i :: β) = A β ⟨i, hi⟩

/-- A tensor `(..., p, q)`. -/
structure Rep2 (b : Shape) (p q : ℕ) (t : Ten α) (A : List ℕ → Fin p → Fin q → α) : Prop where
  shape : t.shape = q :: p :: b
  val : ∀ β, Inside β b → ∀ i (hi : i < p) j (hj : j < q), t.val (j :: i :: β) = A β ⟨i, hi⟩ ⟨j, hj⟩

/-- A tensor `(..., p, q, r)`. -/
structure Rep3 (b : Shape) (p q r : ℕ) (t : Ten α) (A : List ℕ → Fin p → Fin q → Fin r → α) :
    Prop where
  shape : t.shape = r :: q :: p :: b
  val : ∀ β, Inside β b → ∀ i (hi : i < p) j (hj : j < q) k (hk : k < r),
    t.val (k :: j :: i :: β) = A β ⟨i, hi⟩ ⟨j, hj⟩ ⟨k, hk⟩

/-- A tensor `(..., p, q, r, s)`. -/
structure Rep4 (b : Shape) (p q r s : ℕ) (t : Ten α)
    (A : List ℕ → Fin p → Fin q → Fin r → Fin s → α) : Prop where
  shape : t.shape = s :: r :: q :: p :: b
  val : ∀ β, Inside β b → ∀ i (hi : i < p) j (hj : j < q) k (hk : k < r) l (hl : l < s),
    t.val (l :: k :: j :: i :: β) = A β ⟨i, hi⟩ ⟨j, hj⟩ ⟨k, hk⟩ ⟨l, hl⟩

/-- The item at batch index `β` of a tensor `(..., p, q, r)`. -/
def item3 (t : Ten α) (p q r : ℕ) (β : List ℕ) : Fin p → Fin q → Fin r → α :=
  fun i j k => t.val (k :: j :: i :: β)

/-- `t[β]`: the item at batch index `β` as a tensor with `k` dimensions. -/
def Ten.itemAt (t : Ten α) (k : ℕ) (β : List ℕ) : Ten α := ⟨t.shape.take k, fun idx => t.val (idx ++ β)⟩

/-- The outcome `x` of a batched computation compared with the outcomes `y β` of the items: it returns
exactly when all items return, and then holds their results; otherwise it raises the exception of one
of the items. -/
def Batched {ρ A : Type} (b : Shape) (R : ρ → (List ℕ → A) → Prop) (x : Except Err ρ)
    (y : List ℕ → Except Err A) : Prop :=
  match x with
  | .ok t => ∃ a : List ℕ → A, (∀ β, Inside β b → y β = .ok (a β)) ∧ R t a
  | .error e => ∃ β, Inside β b ∧ y β = .error e

/-- `t1` is the item `t[β]` of `t`: same sizes without the batch dimensions, same entries. -/
def IsItem (β : List ℕ) (t t1 : Ten α) : Prop :=
  t1.shape = t.shape.take (t.shape.length - β.length) ∧
    ∀ idx, Inside idx t1.shape → t1.val idx = t.val (idx ++ β)

/-- The outcome `x` of a computation on a batch compared with the outcomes `x1 β` of the same computation
on every item alone: it returns only if all of these return, and then `Q β` relates the results;
if it raises, so does one of them, with the same exception. -/
def AsAlone {ρ : Type} (b : Shape) (Q : List ℕ → ρ → ρ → Prop) (x : Except Err ρ)
    (x1 : List ℕ → Except Err ρ) : Prop :=
  match x with
  | .ok t => ∀ β, Inside β b → ∃ t1, x1 β = .ok t1 ∧ Q β t t1
  | .error e => ∃ β, Inside β b ∧ x1 β = .error e

/-- The source model `M` on tensors, called with `s` sources, treats every item of the batch as the model `m` does; `S`
relates the state of `M` to the states of the items. -/
def ModelRep {τ σ : Type} (b : Shape) (s F N : ℕ) (M : TenModel τ) (m : SourceModel σ F N)
    (S : τ → (List ℕ → σ) → Prop) : Prop :=
  ∀ (ts : τ) (ms : List ℕ → σ) (Y : Ten ℂ) (A : List ℕ → Sig s F N), S ts ms →
    Rep3 b s F N Y A → ∃ w, M ts Y = .ok w ∧
      Rep3 b s F N w.1 (fun β => (m s (ms β) (A β)).1) ∧ S w.2 fun β => (m s (ms β) (A β)).2

/-- The background filter of the tensor program holds those of the items. -/
def RepJ (b : Shape) (p q r : ℕ) (J : Option (Ten ℂ)) (A : List ℕ → Option (Fin p → Fin q → Fin r → ℂ)) :
    Prop :=
  match J with
  | none => ∀ β, A β = none
  | some J => ∃ AJ, Rep3 b p q r J AJ ∧ ∀ β, A β = some (AJ β)

/-- The tensors returned by `T_ISS.forward` hold what it returns for the items. -/
structure RepTissOut {τ σ : Type} (b : Shape) (s C F N : ℕ) (S : τ → (List ℕ → σ) → Prop) (st : TissOutT τ)
    (A : List ℕ → TissOut σ s C F N) : Prop where
  Y : Rep3 b s F N st.Y fun β => (A β).Y
  W : Rep3 b s F C st.W fun β => (A β).W
  J : RepJ b (C - s) F s st.J fun β => (A β).J
  ms : S st.ms fun β => (A β).ms
  noJ : st.J = none → s = C

/-- The background filter of the tensor program holds those of the items, one per frequency. -/
def RepJF (b : Shape) (F p q : ℕ) (J : Option (Ten ℂ)) (A : List ℕ → Fin F → Option (Matrix (Fin p) (Fin q) ℂ)) :
    Prop :=
  match J with
  | none => ∀ β f, A β f = none
  | some J => ∃ AJ : List ℕ → Fin F → Matrix (Fin p) (Fin q) ℂ,
      Rep3 b F p q J (fun β f i j => AJ β f i j) ∧ ∀ β f, A β f = some (AJ β f)

/-- The signal returned by `AuxIVA_IP.forward` holds those of the items. -/
structure RepIpOut {τ σ : Type} (b : Shape) (s F N : ℕ) (S : τ → (List ℕ → σ) → Prop) (st : IpOutT τ)
    (A : List ℕ → IpOut σ s F N) : Prop where
  Y : Rep3 b s F N st.Y fun β => (A β).Y
  ms : S st.ms fun β => (A β).ms

/-- The source model given to WPE on tensors treats every item of the batch as the one given for the items;
it returns one weight per frequency and frame. -/
def WpeModelRep {τ σ : Type} (b : Shape) (C F N : ℕ) (M : Option (TenModel τ)) (m : Option (WpeModel σ C F N))
    (S : τ → (List ℕ → σ) → Prop) : Prop :=
  match M, m with
  | none, none => True
  | some M, some m => ∀ (ts : τ) (ms : List ℕ → σ) (Y : Ten ℂ) (A : List ℕ → Sig C F N), S ts ms →
      Rep3 b C F N Y A → ∃ w, M ts Y = .ok w ∧
        Rep2 b F N w.1 (fun β => (m (ms β) (A β)).1) ∧ S w.2 fun β => (m (ms β) (A β)).2
  | _, _ => False

/-- The signal returned by `WPE.forward` holds those of the items. -/
structure RepWpe {τ σ : Type} (b : Shape) (C F N : ℕ) (S : τ → (List ℕ → σ) → Prop) (st : WpeT τ)
    (A : List ℕ → WpeState σ C F N) : Prop where
  Y : Rep3 b C F N st.Y fun β => (A β).Y
  ms : S st.ms fun β => (A β).ms

end Torchiva
