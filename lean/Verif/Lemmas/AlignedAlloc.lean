import Verif.Model.AlignedAlloc
set_option autoImplicit false

namespace Verif.AlignedAlloc

theorem ceilAddress_le (p a : Nat) : ceilAddress p a ≤ p := Nat.div_mul_le_self p a

theorem ceilAddress_gt (p : Nat) {a : Nat} (ha : 0 < a) : p < ceilAddress p a + a := by
  unfold ceilAddress
  have := Nat.div_add_mod p a
  have := Nat.mod_lt p ha
  have h : a * (p / a) = p / a * a := Nat.mul_comm _ _
  omega

theorem ceilAddress_mod (p a : Nat) : ceilAddress p a % a = 0 := Nat.mul_mod_left _ _

theorem selectOffsetFrom_spec {abi : Abi} {align w : Nat} {ws : List Nat}
    (h : selectOffsetFrom abi align ws = some w) : w ∈ ws ∧ extraLength abi align w ≤ 256 ^ w - 1 := by
  induction ws with
  | nil => simp [selectOffsetFrom] at h
  | cons x ws ih =>
    simp only [selectOffsetFrom] at h
    split at h
    · simp at h; subst h; exact ⟨by simp, by assumption⟩
    · have := ih h; exact ⟨by simp [this.1], this.2⟩

theorem load_congr {m m' : Mem} {p w : Nat} (h : ∀ a, p ≤ a → a < p + w → m a = m' a) : load m p w = load m' p w := by
  induction w generalizing p with
  | zero => rfl
  | succ w ih =>
    simp only [load]
    rw [h p (Nat.le_refl _) (by omega), ih (fun a h1 h2 => h a (by omega) (by omega))]

theorem load_digits (m : Mem) (p w v : Nat) (hv : v < 256 ^ w)
    (h : ∀ i, i < w → m (p + i) = (v / 256 ^ i) % 256) : load m p w = v := by
  induction w generalizing p v with
  | zero => simp at hv; simp [load, hv]
  | succ w ih =>
    simp only [load]
    have h0 := h 0 (by omega)
    simp at h0
    rw [h0]
    have := ih (p + 1) (v / 256) (by rw [Nat.pow_succ] at hv; omega) (fun i hi => by
      have := h (i + 1) (by omega)
      rw [show p + 1 + i = p + (i + 1) by omega, this, Nat.pow_succ, Nat.mul_comm, Nat.div_div_eq_div_mul])
    rw [this]
    omega

theorem load_store (m : Mem) (p w v : Nat) (hv : v < 256 ^ w) : load (store m p w v) p w = v := by
  apply load_digits _ _ _ _ hv
  intro i hi
  unfold store
  rw [if_pos ⟨by omega, by omega⟩, show p + i - p = i by omega]

/-- Everything about the generic variant. -/
theorem generic_spec (abi : Abi) (align w size n raw : Nat) (mem : Mem) (hal : 0 < align)
    (hoff : 0 < abi.alignOf w) (hw : extraLength abi align w ≤ 256 ^ w - 1)
    (hfit : n * size + (align - 1 + w + abi.alignOf w - 1) < sizeMax) :
    let b := allocateGeneric abi align w size n raw mem
    let slot := offsetPtr abi w b.user
    b.user % align = 0 ∧ b.raw = raw ∧ b.raw ≤ slot ∧ slot % abi.alignOf w = 0 ∧ slot + w ≤ b.user ∧
      b.user + n * size ≤ b.raw + b.len ∧ b.user - raw < 256 ^ w := by
  have he : extraLength abi align w = align - 1 + w + abi.alignOf w - 1 := Nat.mod_eq_of_lt (by omega)
  have hlen : (n * size + extraLength abi align w) % sizeMax = n * size + extraLength abi align w :=
    Nat.mod_eq_of_lt (by omega)
  intro b slot
  have hb : b.user = ceilAddress (raw + extraLength abi align w) align := rfl
  have hr : b.raw = raw := rfl
  have hl : b.len = n * size + extraLength abi align w := hlen
  have hs : slot = ceilAddress (b.user - w) (abi.alignOf w) := rfl
  have h1 := ceilAddress_le (raw + extraLength abi align w) align
  have h2 := ceilAddress_gt (raw + extraLength abi align w) hal
  rw [← hb] at h1 h2
  have h3 := ceilAddress_le (b.user - w) (abi.alignOf w)
  have h4 := ceilAddress_gt (b.user - w) hoff
  rw [← hs] at h3 h4
  have hpw : 0 < 256 ^ w := Nat.pow_pos (by omega)
  refine ⟨ceilAddress_mod _ _, hr, ?_, ceilAddress_mod _ _, ?_, ?_, ?_⟩
  · omega
  · omega
  · omega
  · omega

end Verif.AlignedAlloc
