import Verif.Spec.Rearrange
import Verif.Proofs.Reorder
import Verif.Props.Beamformer

/-! # Helper lemmas: order of the microphones -/

namespace Torchiva

open Matrix Spec
open scoped ComplexOrder

variable {C S F N : ℕ}

lemma solve_submatrix {ι κ κ' : Type} [Fintype ι] [DecidableEq ι] (A : Matrix ι ι ℂ) (b : Matrix ι κ ℂ) (e : Equiv.Perm ι)
    (g : κ' → κ) : solve (A.submatrix e e) (b.submatrix e g) = (solve A b).map fun x => x.submatrix e g := by
  unfold solve
  rw [Matrix.det_submatrix_equiv_self, Matrix.inv_submatrix_equiv, Matrix.submatrix_mul_equiv]
  split_ifs <;> rfl

lemma maxAbs_submatrix {ι : Type} [Fintype ι] (A : Matrix ι ι ℂ) (e : Equiv.Perm ι) :
    maxAbs (A.submatrix e e) = maxAbs A := by
  unfold maxAbs
  by_cases h : Nonempty ι ∧ Nonempty ι
  · rw [dif_pos h, dif_pos h]
    congr 1
    apply le_antisymm
    · refine Finset.sup'_le _ _ fun j _ => Finset.sup'_le _ _ fun i _ => ?_
      exact (Finset.le_sup' (fun i => ‖A i (e j)‖) (Finset.mem_univ (e i))).trans
        (Finset.le_sup' (fun j => Finset.univ.sup' _ fun i => ‖A i j‖) (Finset.mem_univ (e j)))
    · refine Finset.sup'_le _ _ fun j _ => Finset.sup'_le _ _ fun i _ => ?_
      have h1 : ‖A i j‖ = ‖(A.submatrix e e) (e.symm i) (e.symm j)‖ := by simp
      rw [h1]
      exact (Finset.le_sup' (fun i => ‖(A.submatrix e e) i (e.symm j)‖) (Finset.mem_univ (e.symm i))).trans
        (Finset.le_sup' (fun j => Finset.univ.sup' _ fun i => ‖(A.submatrix e e) i j‖) (Finset.mem_univ (e.symm j)))
  · rw [dif_neg h, dif_neg h]

lemma solveLoaded_submatrix {ι κ κ' : Type} [Fintype ι] [DecidableEq ι] (A : Matrix ι ι ℂ) (b : Matrix ι κ ℂ) (e : Equiv.Perm ι)
    (g : κ' → κ) (load : ℝ) :
    solveLoaded (A.submatrix e e) (b.submatrix e g) load = (solveLoaded A b load).map fun x => x.submatrix e g := by
  unfold solveLoaded
  rw [maxAbs_submatrix]
  cases maxAbs A with
  | error e => rfl
  | ok m =>
    simp only [bind, Except.bind]
    rw [← solve_submatrix]
    congr 1
    ext i j
    simp [Matrix.one_apply]

section bf
variable (π : Equiv.Perm (Fin C)) (Rt Rn : Matrix (Fin C) (Fin C) ℂ)

lemma mwfBfRef_submatrix (eps : ℝ) (ref : Fin C) :
    mwfBfRef (Rt.submatrix π π) (Rn.submatrix π π) eps ref = (mwfBfRef Rt Rn eps (π ref)).map fun w => w ∘ π := by
  unfold mwfBfRef
  have h1 : Rt.submatrix π π + Rn.submatrix π π = (Rt + Rn).submatrix π π := rfl
  have h2 : (colVec fun c => (Rt.submatrix π π) c ref) = (colVec fun c => Rt c (π ref)).submatrix π id := rfl
  rw [h1, h2, solveLoaded_submatrix]
  cases solveLoaded (Rt + Rn) (colVec fun c => Rt c (π ref)) 1e-6 <;> rfl

lemma mvdrBf_submatrix (d : Fin C → ℂ) (eps : ℝ) :
    mvdrBf (Rn.submatrix π π) (d ∘ π) eps = (mvdrBf Rn d eps).map fun w => w ∘ π := by
  unfold mvdrBf
  have h2 : colVec (d ∘ π) = (colVec d).submatrix π id := rfl
  rw [h2, solveLoaded_submatrix]
  cases solveLoaded Rn (colVec d) eps with
  | error e => rfl
  | ok a =>
    simp only [bind, Except.bind, Except.map]
    have h3 : ∑ c, star ((d ∘ π) c) * (a.submatrix π id) c () = ∑ c, star (d c) * a c () :=
      Equiv.sum_comp π fun c => star (d c) * a c ()
    rw [h3]
    split_ifs <;> rfl

lemma mvdrBf2_submatrix (ref : Fin C) :
    mvdrBf2 (Rt.submatrix π π) (Rn.submatrix π π) ref = (mvdrBf2 Rt Rn (π ref)).map fun w => w ∘ π := by
  unfold mvdrBf2
  rw [solve_submatrix]
  cases solve Rn Rt with
  | error e => rfl
  | ok a =>
    simp only [bind, Except.bind, Except.map]
    have h3 : ∑ c, (a.submatrix π π) c c = ∑ c, a c c := Equiv.sum_comp π fun c => a c c
    rw [h3]
    split_ifs <;> rfl

lemma mulVec_submatrix (R : Matrix (Fin C) (Fin C) ℂ) (v : Fin C → ℂ) : (R.submatrix π π) *ᵥ (v ∘ π) = (R *ᵥ v) ∘ π := by
  funext i
  exact Equiv.sum_comp π fun j => R (π i) j * v j

lemma power_submatrix (R : Matrix (Fin C) (Fin C) ℂ) (v : Fin C → ℂ) : power (R.submatrix π π) (v ∘ π) = power R v := by
  unfold power
  rw [mulVec_submatrix]
  congr 1
  exact Equiv.sum_comp π fun c => star (v c) * (R *ᵥ v) c

lemma isMaxSnr_submatrix {v : Fin C → ℂ} (h : IsMaxSnr (Rt.submatrix π π) (Rn.submatrix π π) v) : IsMaxSnr Rt Rn (v ∘ π.symm) := by
  have e : ∀ u : Fin C → ℂ, u = (u ∘ π.symm) ∘ π := fun u => by funext c; simp
  constructor
  · rw [← power_submatrix π, ← e]; exact h.1
  · intro u
    have := h.2 (u ∘ π)
    rw [power_submatrix, power_submatrix] at this
    rw [← power_submatrix π Rn (v ∘ π.symm), ← power_submatrix π Rt (v ∘ π.symm), ← e]
    exact this

lemma nnNormalize_comp (v : Fin C → ℂ) : nnNormalize (v ∘ π) = nnNormalize v ∘ π := by
  funext c
  unfold nnNormalize
  have : ∑ c, ‖(v ∘ π) c‖ ^ 2 = ∑ c, ‖v c‖ ^ 2 := Equiv.sum_comp π fun c => ‖v c‖ ^ 2
  simp only [Function.comp] at this ⊢
  rw [this]

/-- Power iterations start from the first microphone, which must keep its place. -/
lemma rtfVector_submatrix [NeZero C] (solver) (h0 : π 0 = 0) (n : ℕ) :
    rtfVector solver (Rt.submatrix π π) (Rn.submatrix π π) (some n) = (rtfVector solver Rt Rn (some n)).map fun w => w ∘ π := by
  unfold rtfVector
  simp only
  rw [solveLoaded_submatrix]
  cases solveLoaded Rn Rt 1e-5 with
  | error e => rfl
  | ok Phi =>
    simp only [bind, Except.bind, Except.map, pure, Except.pure]
    congr 1
    have : (fun c => (Phi.submatrix π π) c 0) = (fun c => Phi c 0) ∘ π := by
      funext c; simp [h0]
    rw [this]
    induction n - 1 with
    | zero => rfl
    | succ k ih => rw [Function.iterate_succ', Function.iterate_succ', Function.comp, Function.comp, ih, mulVec_submatrix, nnNormalize_comp]

lemma rtf_of_vector [NeZero C] (solver solver') (Rt' : Matrix (Fin C) (Fin C) ℂ) (nPower nPower') (ref : Fin C)
    (v v' : Fin C → ℂ) (z : ℂ) (hz : z ≠ 0)
    (h : rtfVector solver Rt Rn nPower = .ok v) (h' : rtfVector solver' Rt' (Rn.submatrix π π) nPower' = .ok v') (hv : v' = z • (v ∘ π)) :
    mvdrRtf solver' Rt' (Rn.submatrix π π) ref nPower' = (mvdrRtf solver Rt Rn (π ref) nPower).map fun w => w ∘ π := by
  unfold mvdrRtf
  rw [h, h']
  simp only [bind, Except.bind]
  have e : (Rn.submatrix π π) *ᵥ v' = z • ((Rn *ᵥ v) ∘ π) := by rw [hv, Matrix.mulVec_smul, mulVec_submatrix]
  rw [e]
  by_cases h0 : (Rn *ᵥ v) (π ref) = 0
  · rw [if_pos h0, if_pos (by simp [h0])]; rfl
  · rw [if_neg h0, if_neg (by simp [h0, hz])]
    simp only [Except.map, pure, Except.pure]
    congr 1
    funext c
    simp only [Pi.smul_apply, Function.comp, smul_eq_mul]
    exact mul_div_mul_left _ _ hz

lemma gevBf_submatrix [NeZero C] (solver) (hn : Rn.PosDef) (ht : Rt.IsHermitian) (hbest : UniqueBest Rt Rn) (ref : Fin C)
    (r r' : EigRes (Fin C)) (hr : eigh solver Rt (some Rn) 1e-15 = .ok r) (hg : IsGevd Rt Rn r.val r.vec)
    (hr' : eigh solver (Rt.submatrix π π) (some (Rn.submatrix π π)) 1e-15 = .ok r')
    (hg' : IsGevd (Rt.submatrix π π) (Rn.submatrix π π) r'.val r'.vec) :
    gevBf solver (Rt.submatrix π π) (Rn.submatrix π π) ref = (gevBf solver Rt Rn (π ref)).map fun w => w ∘ π := by
  have hn' : (Rn.submatrix π π).PosDef := hn.submatrix π.injective
  have ht' : (Rt.submatrix π π).IsHermitian := ht.submatrix π
  have hm := gevd_max ht hn hg
  have hm' := isMaxSnr_submatrix π Rt Rn (gevd_max ht' hn' hg')
  obtain ⟨z, hz⟩ := hbest _ _ hm hm'
  have hz' : (fun c => r'.vec c (Fin.rev 0)) = z • ((fun c => r.vec c (Fin.rev 0)) ∘ π) := by
    funext c
    have := congrFun hz (π c)
    simpa using this
  have hz0 : z ≠ 0 := by
    rintro rfl
    have := (gevd_max ht' hn' hg').1
    rw [hz'] at this
    simp [power] at this
  rw [gevBf_closed _ _ solver hn' ref r' hr' hg', gevBf_closed _ _ solver hn (π ref) r hr hg]
  simp only [Except.map]
  congr 1
  funext c
  rw [hz', Matrix.mulVec_smul, mulVec_submatrix, power_smul_vec, power_submatrix, congrFun hz' c]
  simp only [Pi.smul_apply, Function.comp, smul_eq_mul, star_mul']
  have hzz : star z * z = ((‖z‖ ^ 2 : ℝ) : ℂ) := by rw [Complex.star_def, Complex.conj_mul', Complex.ofReal_pow]
  have h1 : ((‖z‖ ^ 2 : ℝ) : ℂ) ≠ 0 := by
    have := norm_pos_iff.2 hz0
    exact_mod_cast (by positivity : ‖z‖ ^ 2 ≠ 0)
  rw [Complex.ofReal_mul, ← hzz]
  rw [← hzz] at h1
  have h2 := left_ne_zero_of_mul h1
  field_simp

lemma rtf_submatrix_power [NeZero C] (solver) (h0 : π 0 = 0) (n : ℕ) (ref : Fin C) :
    mvdrRtf solver (Rt.submatrix π π) (Rn.submatrix π π) ref (some n) = (mvdrRtf solver Rt Rn (π ref) (some n)).map fun w => w ∘ π := by
  have h := rtfVector_submatrix π Rt Rn solver h0 n
  cases hv : rtfVector solver Rt Rn (some n) with
  | error e =>
    rw [hv] at h
    unfold mvdrRtf
    rw [h, hv]; rfl
  | ok v =>
    rw [hv] at h
    exact rtf_of_vector π Rt Rn solver solver _ _ _ ref v _ 1 one_ne_zero hv h (by rw [one_smul])

lemma rtf_submatrix_eig [NeZero C] (solver) (hn : Rn.PosDef) (ht : Rt.IsHermitian) (hbest : UniqueBest Rt Rn) (ref : Fin C)
    (r r' : EigRes (Fin C)) (hr : eigh solver Rt (some Rn) 1e-15 = .ok r) (hg : IsGevd Rt Rn r.val r.vec)
    (hr' : eigh solver (Rt.submatrix π π) (some (Rn.submatrix π π)) 1e-15 = .ok r')
    (hg' : IsGevd (Rt.submatrix π π) (Rn.submatrix π π) r'.val r'.vec) :
    mvdrRtf solver (Rt.submatrix π π) (Rn.submatrix π π) ref none = (mvdrRtf solver Rt Rn (π ref) none).map fun w => w ∘ π := by
  have hn' : (Rn.submatrix π π).PosDef := hn.submatrix π.injective
  have ht' : (Rt.submatrix π π).IsHermitian := ht.submatrix π
  have hm := gevd_max ht hn hg
  have hm' := isMaxSnr_submatrix π Rt Rn (gevd_max ht' hn' hg')
  obtain ⟨z, hz⟩ := hbest _ _ hm hm'
  have hz' : (fun c => r'.vec c (Fin.rev 0)) = z • ((fun c => r.vec c (Fin.rev 0)) ∘ π) := by
    funext c
    have := congrFun hz (π c)
    simpa using this
  have hz0 : z ≠ 0 := by
    rintro rfl
    have := (gevd_max ht' hn' hg').1
    rw [hz'] at this
    simp [power] at this
  refine rtf_of_vector π Rt Rn solver solver _ none none ref (fun c => r.vec c (Fin.rev 0)) (fun c => r'.vec c (Fin.rev 0)) z hz0 ?_ ?_ hz'
  · unfold rtfVector
    simp only [hr]
    rfl
  · unfold rtfVector
    simp only [hr']
    rfl

end bf

lemma seqAll_equiv {φ α β : Type} (e : Equiv.Perm φ) (g : φ → Except Err α) (g' : φ → Except Err β) (h : α → β)
    (hg : ∀ p, g' p = (g (e p)).map h) (x' : φ → β) :
    seqAll g' = .ok x' ↔ ∃ x, seqAll g = .ok x ∧ x' = fun p => h (x (e p)) := by
  constructor
  · intro hx
    rw [seqAll_ok_iff] at hx
    have : ∀ p, ∃ a, g p = .ok a ∧ x' (e.symm p) = h a := by
      intro p
      have h1 := hx (e.symm p)
      rw [hg, Equiv.apply_symm_apply] at h1
      cases hp : g p with
      | error e => rw [hp] at h1; cases h1
      | ok a => rw [hp] at h1; exact ⟨a, rfl, (Except.ok.inj h1).symm⟩
    choose x hx1 hx2 using this
    refine ⟨x, seqAll_ok_iff.2 hx1, ?_⟩
    funext p
    rw [← hx2, Equiv.symm_apply_apply]
  · rintro ⟨x, hx, rfl⟩
    rw [seqAll_ok_iff] at hx ⊢
    intro p
    rw [hg, hx]; rfl

lemma maskCov_rearrange (r : Reorder F N) (π : Equiv.Perm (Fin C)) (mask : Fin F → Fin N → ℝ) (X : Sig C F N) (f : Fin F) :
    maskCov (fun f n => mask (r.freq f) (r.frame n)) (r.sig (relabel π X)) f = (maskCov mask X (r.freq f)).submatrix π π := by
  ext c d
  exact reorder_corr r f (fun f n => (mask f n : ℂ)) (X (π c)) (X (π d))

lemma reorder_sig_inj (r : Reorder F N) {c : ℕ} {Y Y' : Sig c F N} (h : r.sig Y = r.sig Y') : Y = Y' := by
  funext k f n
  have := congrFun (congrFun (congrFun h k) (r.freq.symm f)) (r.frame.symm n)
  simp only [Reorder.sig, Equiv.apply_symm_apply] at this
  refine mul_left_cancel₀ ?_ this
  rw [← norm_ne_zero_iff, r.unit]
  exact one_ne_zero

lemma applyBf_rearrange (r : Reorder F N) (π : Equiv.Perm (Fin C)) (X : Sig C F N) (bf : Fin S × Fin F → Fin C → ℂ) :
    applyBf (r.sig (relabel π X)) (fun p => bf (p.1, r.freq p.2) ∘ π) = r.sig (applyBf X bf) := by
  funext s f n
  simp only [applyBf, Reorder.sig, relabel, Function.comp, Finset.mul_sum]
  rw [← Equiv.sum_comp π fun c => r.u f n * (X c (r.freq f) (r.frame n) * star (bf (s, r.freq f) c))]
  exact Finset.sum_congr rfl fun c _ => by ring

/-- From the image of a result to an equivalence. -/
lemma iff_of_image (r : Reorder F N) {s : ℕ} {a b : Except Err (Sig s F N)} (h : ∀ Y', b = .ok Y' ↔ ∃ Y, a = .ok Y ∧ Y' = r.sig Y)
    (Y : Sig s F N) : a = .ok Y ↔ b = .ok (r.sig Y) := by
  rw [h]
  constructor
  · intro e; exact ⟨Y, e, rfl⟩
  · rintro ⟨Y0, e, h0⟩
    rw [e, reorder_sig_inj r h0]

lemma bind_ok_iff {α β : Type} (x : Except Err α) (f : α → Except Err β) (b : β) :
    (x >>= f) = .ok b ↔ ∃ a, x = .ok a ∧ f a = .ok b := by
  cases x with
  | error e => exact ⟨fun h => (by cases h), fun ⟨a, h, _⟩ => (by cases h)⟩
  | ok a => exact ⟨fun h => ⟨a, rfl, h⟩, fun ⟨a', h, h'⟩ => (by cases h; exact h')⟩

/-- The permutation of the pairs of source and frequency. -/
def pairPerm (S : ℕ) (r : Reorder F N) : Equiv.Perm (Fin S × Fin F) := (Equiv.refl _).prodCongr r.freq

/-- One batch of filters, applied. -/
lemma forward_one (r : Reorder F N) (π : Equiv.Perm (Fin C)) (X : Sig C F N) (g g' : Fin S × Fin F → Except Err (Fin C → ℂ))
    (hg : ∀ p, g' p = (g (pairPerm S r p)).map fun w => w ∘ π) (Y' : Sig S F N) :
    (seqAll g' >>= fun bf => .ok (applyBf (r.sig (relabel π X)) bf)) = .ok Y' ↔
    ∃ Y, (seqAll g >>= fun bf => .ok (applyBf X bf)) = .ok Y ∧ Y' = r.sig Y := by
  simp only [bind_ok_iff, seqAll_equiv (pairPerm S r) g g' _ hg, Except.ok.injEq]
  constructor
  · rintro ⟨_, ⟨bf, h1, rfl⟩, rfl⟩
    exact ⟨_, ⟨bf, h1, rfl⟩, applyBf_rearrange r π X bf⟩
  · rintro ⟨_, ⟨bf, h1, rfl⟩, rfl⟩
    exact ⟨_, ⟨bf, h1, rfl⟩, applyBf_rearrange r π X bf⟩

/-- Transfer functions, then filters. -/
lemma forward_two (r : Reorder F N) (π : Equiv.Perm (Fin C)) (X : Sig C F N) (g g' : Fin S × Fin F → Except Err (Fin C → ℂ))
    (hg : ∀ p, g' p = (g (pairPerm S r p)).map fun w => w ∘ π)
    (k k' : Fin S × Fin F → (Fin C → ℂ) → Except Err (Fin C → ℂ))
    (hk : ∀ p d, k' p (d ∘ π) = (k (pairPerm S r p) d).map fun w => w ∘ π) (Y' : Sig S F N) :
    (seqAll g' >>= fun rtf => seqAll (fun p => k' p (rtf p)) >>= fun bf => .ok (applyBf (r.sig (relabel π X)) bf)) = .ok Y' ↔
    ∃ Y, (seqAll g >>= fun rtf => seqAll (fun p => k p (rtf p)) >>= fun bf => .ok (applyBf X bf)) = .ok Y ∧ Y' = r.sig Y := by
  rw [bind_ok_iff]
  simp only [seqAll_equiv (pairPerm S r) g g' _ hg]
  constructor
  · rintro ⟨_, ⟨d, h1, rfl⟩, h2⟩
    obtain ⟨Y, h3, h4⟩ := (forward_one r π X (fun p => k p (d p)) _ (fun p => hk p _) Y').1 h2
    exact ⟨Y, (bind_ok_iff _ _ _).2 ⟨d, h1, h3⟩, h4⟩
  · rintro ⟨Y, h, h4⟩
    obtain ⟨d, h1, h3⟩ := (bind_ok_iff _ _ _).1 h
    exact ⟨_, ⟨d, h1, rfl⟩, (forward_one r π X (fun p => k p (d p)) _ (fun p => hk p _) Y').2 ⟨Y, h3, h4⟩⟩

/-- Scaling commutes with relabelling. -/
lemma smul_submatrix (π : Equiv.Perm (Fin C)) (a : ℂ) (A : Matrix (Fin C) (Fin C) ℂ) :
    (a • A).submatrix π π = a • A.submatrix π π := rfl

/-- Filters that also depend on the frame. -/
lemma forward_frames (r : Reorder F N) (π : Equiv.Perm (Fin C)) (X : Sig C F N)
    (g g' : (Fin S × Fin F) × Fin N → Except Err (Fin C → ℂ))
    (hg : ∀ p, g' p = (g ((pairPerm S r).prodCongr r.frame p)).map fun w => w ∘ π) (Y' : Sig S F N) :
    (seqAll g' >>= fun bf => (.ok fun s f n => ∑ c, r.sig (relabel π X) c f n * star (bf ((s, f), n) c) :
      Except Err (Sig S F N))) = .ok Y' ↔
    ∃ Y, (seqAll g >>= fun bf => (.ok fun s f n => ∑ c, X c f n * star (bf ((s, f), n) c) : Except Err (Sig S F N))) = .ok Y ∧
      Y' = r.sig Y := by
  have key : ∀ bf : (Fin S × Fin F) × Fin N → Fin C → ℂ,
      (fun (s : Fin S) (f : Fin F) (n : Fin N) => ∑ c, r.sig (relabel π X) c f n *
        star ((bf ((pairPerm S r).prodCongr r.frame ((s, f), n)) ∘ π) c))
        = r.sig fun s f n => ∑ c, X c f n * star (bf ((s, f), n) c) := by
    intro bf
    funext s f n
    simp only [Reorder.sig, relabel, Function.comp, Finset.mul_sum]
    rw [← Equiv.sum_comp π fun c => r.u f n * (X c (r.freq f) (r.frame n) * star (bf ((s, r.freq f), r.frame n) c))]
    exact Finset.sum_congr rfl fun c _ => mul_assoc _ _ _
  have hs := seqAll_equiv ((pairPerm S r).prodCongr r.frame) g g' (fun w => w ∘ π) hg
  constructor
  · intro h
    obtain ⟨x', h1, h2⟩ := (bind_ok_iff _ _ _).1 h
    obtain ⟨bf, h3, rfl⟩ := (hs x').1 h1
    exact ⟨_, (bind_ok_iff _ _ _).2 ⟨bf, h3, rfl⟩, (Except.ok.inj h2).symm.trans (key bf)⟩
  · rintro ⟨Y, h, rfl⟩
    obtain ⟨bf, h1, h2⟩ := (bind_ok_iff _ _ _).1 h
    obtain rfl := Except.ok.inj h2
    exact (bind_ok_iff _ _ _).2 ⟨_, (hs _).2 ⟨bf, h1, rfl⟩, congrArg Except.ok (key bf)⟩

/-- Filters applied without conjugation. -/
lemma forward_gev (r : Reorder F N) (π : Equiv.Perm (Fin C)) (X : Sig C F N) (g g' : Fin S × Fin F → Except Err (Fin C → ℂ))
    (hg : ∀ p, g' p = (g (pairPerm S r p)).map fun w => w ∘ π) (Y' : Sig S F N) :
    (seqAll g' >>= fun bf => (.ok fun s f n => ∑ c, bf (s, f) c * r.sig (relabel π X) c f n : Except Err (Sig S F N))) = .ok Y' ↔
    ∃ Y, (seqAll g >>= fun bf => (.ok fun s f n => ∑ c, bf (s, f) c * X c f n : Except Err (Sig S F N))) = .ok Y ∧
      Y' = r.sig Y := by
  have key : ∀ bf : Fin S × Fin F → Fin C → ℂ,
      (fun (s : Fin S) (f : Fin F) (n : Fin N) => ∑ c, (bf (pairPerm S r (s, f)) ∘ π) c * r.sig (relabel π X) c f n)
        = r.sig fun s f n => ∑ c, bf (s, f) c * X c f n := by
    intro bf
    funext s f n
    simp only [Reorder.sig, relabel, Function.comp, Finset.mul_sum]
    rw [← Equiv.sum_comp π fun c => r.u f n * (bf (s, r.freq f) c * X c (r.freq f) (r.frame n))]
    exact Finset.sum_congr rfl fun c _ => mul_left_comm _ _ _
  have hs := seqAll_equiv (pairPerm S r) g g' (fun w => w ∘ π) hg
  constructor
  · intro h
    obtain ⟨x', h1, h2⟩ := (bind_ok_iff _ _ _).1 h
    obtain ⟨bf, h3, rfl⟩ := (hs x').1 h1
    exact ⟨_, (bind_ok_iff _ _ _).2 ⟨bf, h3, rfl⟩, (Except.ok.inj h2).symm.trans (key bf)⟩
  · rintro ⟨Y, h, rfl⟩
    obtain ⟨bf, h1, h2⟩ := (bind_ok_iff _ _ _).1 h
    obtain rfl := Except.ok.inj h2
    exact (bind_ok_iff _ _ _).2 ⟨_, (hs _).2 ⟨bf, h1, rfl⟩, congrArg Except.ok (key bf)⟩

/-- A lower bound on the quadratic form makes a positive semidefinite matrix positive definite. -/
lemma posDef_of_bound {R : Matrix (Fin C) (Fin C) ℂ} (hn : R.PosSemidef) (hpd : ∀ v, 1e-5 * ∑ k, ‖v k‖ ^ 2 ≤ power R v) : R.PosDef := by
  refine Matrix.PosDef.of_dotProduct_mulVec_pos hn.isHermitian fun x hx => ?_
  have h0 := hn.dotProduct_mulVec_nonneg x
  refine lt_of_le_of_ne h0 fun h => ?_
  have h1 := hpd x
  have h2 : power R x = 0 := by
    unfold power
    rw [← h]
    rfl
  have h3 : 0 < ∑ k, ‖x k‖ ^ 2 := by
    obtain ⟨i, hi⟩ := Function.ne_iff.1 hx
    exact Finset.sum_pos' (fun _ _ => by positivity) ⟨i, Finset.mem_univ _, by have := norm_pos_iff.2 hi; positivity⟩
  rw [h2] at h1
  nlinarith

/-- The decompositions in both orders of the microphones. -/
lemma gevd_pair [NeZero C] (hC : C ≠ 2) (π : Equiv.Perm (Fin C)) (solver) (hc : EighContract C solver)
    {Rt Rn : Matrix (Fin C) (Fin C) ℂ} (ht : Rt.IsHermitian) (hn : Rn.IsHermitian)
    (hpd : ∀ v, 1e-5 * ∑ k, ‖v k‖ ^ 2 ≤ power Rn v) :
    ∃ r r', eigh solver Rt (some Rn) 1e-15 = .ok r ∧ IsGevd Rt Rn r.val r.vec ∧
      eigh solver (Rt.submatrix π π) (some (Rn.submatrix π π)) 1e-15 = .ok r' ∧
      IsGevd (Rt.submatrix π π) (Rn.submatrix π π) r'.val r'.vec := by
  obtain ⟨r, hr, hg⟩ := Props.gevd_general hC solver hc _ _ ht hn hpd 1e-15
  obtain ⟨r', hr', hg'⟩ := Props.gevd_general hC solver hc _ _ (ht.submatrix π) (hn.submatrix π) (fun v => by
    have e : v = (v ∘ π.symm) ∘ π := by funext c; simp
    have h := hpd (v ∘ π.symm)
    rw [e, power_submatrix]
    rw [← Equiv.sum_comp π] at h
    simpa using h) 1e-15
  exact ⟨r, r', hr, hg, hr', hg'⟩

/-! ## WPE -/

section wpe
variable {T : ℕ} (π : Equiv.Perm (Fin C))

/-- The order of the pairs of a microphone and a tap. -/
def tapPerm (T : ℕ) (π : Equiv.Perm (Fin C)) : Equiv.Perm (Fin C × Fin T) := π.prodCongr (Equiv.refl _)

lemma wpeDefaultWeights_relabel (Y : Sig C F N) (eps : ℝ) : wpeDefaultWeights (relabel π Y) eps = wpeDefaultWeights Y eps := by
  have e : ∀ f n, ∑ c, magSq (relabel π Y c f n) = ∑ c, magSq (Y c f n) := fun f n =>
    Equiv.sum_comp π fun c => magSq (Y c f n)
  unfold wpeDefaultWeights
  simp only [e]

lemma wpeFilter_relabel (w : Fin F → Fin N → ℝ) (X : Sig C F N) (Xbar : Taps C F T N) (eps : ℝ)
    (H : Fin F → Matrix (Fin C × Fin T) (Fin C) ℂ) (h : wpeFilter w X Xbar eps = .ok H) :
    wpeFilter w (relabel π X) (fun c => Xbar (π c)) eps = .ok fun f => (H f).submatrix (tapPerm T π) π := by
  unfold wpeFilter at h ⊢
  rw [seqAll_ok_iff] at h ⊢
  intro f
  have h1 : wpeAcm w (fun c => Xbar (π c)) f = (wpeAcm w Xbar f).submatrix (tapPerm T π) (tapPerm T π) := rfl
  have h2 : wpeXcv w (relabel π X) (fun c => Xbar (π c)) f = (wpeXcv w X Xbar f).submatrix (tapPerm T π) π := rfl
  rw [h1, h2, solveLoaded_submatrix, h f]
  rfl

lemma wpeDerev_relabel (H : Fin F → Matrix (Fin C × Fin T) (Fin C) ℂ) (X : Sig C F N) (Xbar : Taps C F T N) :
    wpeDerev (fun f => (H f).submatrix (tapPerm T π) π) (relabel π X) (fun c => Xbar (π c)) = relabel π (wpeDerev H X Xbar) := by
  funext s f n
  simp only [wpeDerev, relabel, Matrix.submatrix_apply, tapPerm, Equiv.prodCongr_apply, Prod.map, Equiv.coe_refl, id]
  rw [← Equiv.sum_comp π fun c => ∑ t, star (H f (c, t) (π s)) * Xbar c f t n]

/-- The loop state with the channels in another order. -/
def relabelWpe {σ : Type} (st : WpeState σ C F N) : WpeState σ C F N := ⟨relabel π st.Y, st.ms⟩

lemma wpeStep_relabel {σ : Type} (X : Sig C F N) (Xbar : Taps C F T N) (model : Option (WpeModel σ C F N))
    (hm : ∀ m ∈ model, IgnoresOrder π m) (eps : ℝ) (a b : WpeState σ C F N) (h : wpeStep X Xbar model eps a = .ok b) :
    wpeStep (relabel π X) (fun c => Xbar (π c)) model eps (relabelWpe π a) = .ok (relabelWpe π b) := by
  have tail : ∀ (w : Fin F → Fin N → ℝ) (ms : σ),
      (wpeFilter w X Xbar eps >>= fun H => (pure ⟨wpeDerev H X Xbar, ms⟩ : Except Err (WpeState σ C F N))) = .ok b →
      (wpeFilter w (relabel π X) (fun c => Xbar (π c)) eps >>= fun H =>
        (pure ⟨wpeDerev H (relabel π X) (fun c => Xbar (π c)), ms⟩ : Except Err (WpeState σ C F N))) = .ok (relabelWpe π b) := by
    intro w ms h2
    obtain ⟨H, h3, h4⟩ := (bind_ok_iff _ _ _).1 h2
    refine (bind_ok_iff _ _ _).2 ⟨_, wpeFilter_relabel π _ _ _ _ _ h3, ?_⟩
    obtain rfl := Except.ok.inj h4
    rw [wpeDerev_relabel]
    rfl
  unfold wpeStep at h ⊢
  cases model with
  | none =>
    simp only [relabelWpe, wpeDefaultWeights_relabel] at h ⊢
    obtain ⟨wm, h1, h2⟩ := (bind_ok_iff _ _ _).1 h
    exact (bind_ok_iff _ _ _).2 ⟨wm, h1, tail _ _ h2⟩
  | some m =>
    simp only [relabelWpe, hm m rfl a.ms a.Y] at h ⊢
    obtain ⟨wm, h1, h2⟩ := (bind_ok_iff _ _ _).1 h
    exact (bind_ok_iff _ _ _).2 ⟨wm, h1, tail _ _ h2⟩

lemma wpe_relabel {σ : Type} (nIter T D : ℕ) (eps : ℝ) (X : Sig C F N) (model : Option (WpeModel σ C F N))
    (hm : ∀ m ∈ model, IgnoresOrder π m) (ms : σ) (st : WpeState σ C F N) (h : wpeRun nIter T D eps X model ms = .ok st) :
    wpeRun nIter T D eps (relabel π X) model ms = .ok (relabelWpe π st) := by
  unfold wpeRun at h ⊢
  exact iterM_map _ _ (relabelWpe π) (fun a b => wpeStep_relabel π X _ model hm eps a b) nIter _ _ h

end wpe

end Torchiva
