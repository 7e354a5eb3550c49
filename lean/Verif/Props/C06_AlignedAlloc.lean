import Verif.Lemmas.AlignedAlloc

/-! C06, C07: aligned allocation and deallocation. -/
set_option autoImplicit false

namespace Verif.AlignedAlloc

/-- Assumptions about the platform: alignments of integer types are positive and `max_align_t`'s is a power of two. -/
structure Abi.Ok (abi : Abi) : Prop where
  pos : ∀ w, 0 < abi.alignOf w
  pow : ∃ k, abi.maxAlign = 2 ^ k

/-- What the user asks for is representable: the whole block size does not exceed `SIZE_MAX` for any offset type. -/
def Fits (abi : Abi) (align size n : Nat) : Prop :=
  ∀ w ∈ [1, 2, 4, 8], n * size + (align - 1 + w + abi.alignOf w - 1) < sizeMax

/-- What `operator new` guarantees about the returned address `raw`. -/
def NewOk (abi : Abi) (raw : Nat) : Prop := raw % abi.maxAlign = 0

theorem native_aligned {abi : Abi} (hok : abi.Ok) {align raw : Nat} (hn : isNative abi align = true)
    (hraw : NewOk abi raw) : raw % align = 0 := by
  simp only [isNative, decide_eq_true_eq] at hn
  obtain ⟨h0, hp, hle⟩ := hn
  obtain ⟨j, rfl⟩ := (Nat.and_sub_one_eq_zero_iff_isPowerOfTwo h0).1 hp
  obtain ⟨k, hk⟩ := hok.pow
  have hjk : j ≤ k := by
    rw [hk] at hle
    exact (Nat.pow_le_pow_iff_right (by omega)).1 hle
  have hd : (2 ^ j) ∣ abi.maxAlign := by rw [hk]; exact Nat.pow_dvd_pow 2 hjk
  exact Nat.mod_eq_zero_of_dvd (Nat.dvd_trans hd (Nat.dvd_of_mod_eq_zero hraw))

theorem storageSize_ge {align : Nat} (size : Nat) (h : 0 < align) : size ≤ storageSize align size := by
  unfold storageSize
  have h1 := Nat.div_add_mod (size + align - 1) align
  have h2 := Nat.mod_lt (size + align - 1) h
  have h3 : align * ((size + align - 1) / align) = (size + align - 1) / align * align := Nat.mul_comm _ _
  omega

/-- **C06.** The returned pointer is a multiple of the alignment, and the `n * size` user bytes lie inside the block
obtained from `operator new`. -/
theorem C06_aligned_and_in_block (abi : Abi) (hok : abi.Ok) (align size n raw : Nat) (mem : Mem) (b : Block)
    (hfit : Fits abi align size n) (hnew : NewOk abi raw) (h : allocate abi align size n raw mem = some b) :
    b.user % align = 0 ∧ b.raw = raw ∧ b.raw ≤ b.user ∧ b.user + n * size ≤ b.raw + b.len := by
  unfold allocate at h
  split at h
  · rename_i hn
    simp only [Option.some.injEq] at h
    subst h
    refine ⟨native_aligned hok hn hnew, rfl, Nat.le_refl _, ?_⟩
    have h0 : 0 < align := by simp [isNative] at hn; omega
    exact Nat.add_le_add_left (Nat.mul_le_mul_left n (storageSize_ge size h0)) _
  · split at h
    · simp at h
    · rename_i h0
      cases hs : selectOffset abi align with
      | none => rw [hs] at h; simp at h
      | some w =>
        rw [hs] at h
        simp only [Option.map_some, Option.some.injEq] at h
        subst h
        obtain ⟨hw1, hw2⟩ := selectOffsetFrom_spec hs
        have := generic_spec abi align w size n raw mem (by omega) (hok.pos w) hw2 (hfit w hw1)
        simp only at this
        exact ⟨this.1, this.2.1, by omega, this.2.2.2.2.2.1⟩

/-- **C06**, header: if an offset is stored at all (the alignment is not a native one), the slot lies inside the block,
is aligned for its type and ends at or before the first user byte. -/
theorem C06_header_in_block_and_disjoint (abi : Abi) (hok : abi.Ok) (align size n raw w : Nat) (mem : Mem) (b : Block)
    (hfit : Fits abi align size n) (hnat : isNative abi align = false) (hsel : selectOffset abi align = some w)
    (h : allocate abi align size n raw mem = some b) :
    b.raw ≤ offsetPtr abi w b.user ∧ offsetPtr abi w b.user % abi.alignOf w = 0 ∧
      offsetPtr abi w b.user + w ≤ b.user ∧ w ≤ 8 ∧
      (∀ a, (a < offsetPtr abi w b.user ∨ offsetPtr abi w b.user + w ≤ a) → b.mem a = mem a) := by
  unfold allocate at h
  rw [if_neg (by simp [hnat])] at h
  split at h
  · simp at h
  · rename_i h0
    rw [hsel] at h
    simp only [Option.map_some, Option.some.injEq] at h
    subst h
    obtain ⟨hw1, hw2⟩ := selectOffsetFrom_spec hsel
    have := generic_spec abi align w size n raw mem (by omega) (hok.pos w) hw2 (hfit w hw1)
    simp only at this
    refine ⟨this.2.2.1, this.2.2.2.1, this.2.2.2.2.1, ?_, ?_⟩
    · simp at hw1; omega
    · intro a ha
      simp only [allocateGeneric, store] at ha ⊢
      rw [if_neg (by omega)]

/-- **C06**: the allocator class exists (compiles) for every alignment from 1 up to `2^63`, for integer alignments up
to 16 bytes. -/
theorem C06_every_alignment_supported (abi : Abi) (hle : ∀ w, abi.alignOf w ≤ 16) (align size n raw : Nat) (mem : Mem)
    (h0 : 0 < align) (hmax : align ≤ 2 ^ 63) : ∃ b, allocate abi align size n raw mem = some b := by
  unfold allocate
  split
  · exact ⟨_, rfl⟩
  · rw [if_neg (by omega)]
    have : ∃ w, selectOffset abi align = some w := by
      unfold selectOffset selectOffsetFrom
      split
      · exact ⟨_, rfl⟩
      · unfold selectOffsetFrom
        split
        · exact ⟨_, rfl⟩
        · unfold selectOffsetFrom
          split
          · exact ⟨_, rfl⟩
          · unfold selectOffsetFrom
            have h8 := hle 8
            rw [if_pos]
            · exact ⟨_, rfl⟩
            · have : extraLength abi align 8 < sizeMax := Nat.mod_lt _ (by decide)
              unfold sizeMax at this
              omega
    obtain ⟨w, hw⟩ := this
    rw [hw]
    exact ⟨_, rfl⟩

/-- **C07.** `deallocate` of a pointer returned by `allocate` frees exactly the address obtained from `operator new`,
whatever the user wrote into the `n * size` bytes (memory `mem'` agrees with the memory after allocation elsewhere). -/
theorem C07_deallocate_frees_raw (abi : Abi) (hok : abi.Ok) (align size n raw : Nat) (mem mem' : Mem) (b : Block)
    (hfit : Fits abi align size n) (h : allocate abi align size n raw mem = some b)
    (huser : ∀ a, (a < b.user ∨ b.user + n * size ≤ a) → mem' a = b.mem a) :
    deallocate abi align mem' b.user = some raw := by
  unfold allocate at h
  unfold deallocate
  split at h
  · rename_i hn
    rw [if_pos hn]
    simp only [Option.some.injEq] at h
    subst h; rfl
  · rename_i hn
    rw [if_neg hn]
    split at h
    · simp at h
    · rename_i h0
      rw [if_neg h0]
      cases hs : selectOffset abi align with
      | none => rw [hs] at h; simp at h
      | some w =>
        rw [hs] at h
        simp only [Option.map_some, Option.some.injEq] at h ⊢
        obtain ⟨hw1, hw2⟩ := selectOffsetFrom_spec hs
        have hg := generic_spec abi align w size n raw mem (by omega) (hok.pos w) hw2 (hfit w hw1)
        simp only at hg
        rw [h] at hg
        have hload : load mem' (offsetPtr abi w b.user) w = b.user - raw := by
          rw [load_congr (m' := b.mem) (fun a h1 h2 => huser a (by omega))]
          have hm : b.mem = store mem (offsetPtr abi w b.user) w (b.user - raw) := by subst h; rfl
          rw [hm, load_store _ _ _ _ hg.2.2.2.2.2.2]
        rw [hload]
        omega

/-! Non-vacuity: x86-64 like platform, 64-byte and 100-byte alignment, a 16-aligned raw address. -/

/-- x86-64 with the (only used) widths; width 0 does not occur. -/
def x86 : Abi := ⟨fun w => if w = 0 then 1 else w, 16⟩

example : x86.Ok := ⟨fun w => by simp only [x86]; split <;> omega, ⟨4, rfl⟩⟩
example : Fits x86 64 8 10 ∧ NewOk x86 4112 := by
  constructor
  · intro w hw; simp at hw; rcases hw with rfl | rfl | rfl | rfl <;> decide
  · rfl
example : (allocate x86 64 8 10 4112 (fun _ => 0)).map (fun b => (b.user, b.raw, b.len)) = some (4160, 4112, 144) := by
  decide
example : (allocate x86 1000 8 10 4112 (fun _ => 0)).map (fun b => (b.user, b.raw, b.len)) = some (5000, 4112, 1082) := by
  decide

/-- The hypothesis `Fits` is needed: the length computation of l.68 is not checked for overflow.  With 2^61 elements of
8 bytes the product wraps to 0 and a 64-byte block is returned for 2^64 bytes of elements. -/
theorem C06_length_overflow_violated :
    ∃ b, allocate x86 64 8 (2 ^ 61) 4112 (fun _ => 0) = some b ∧ b.len = 64 ∧ ¬ (b.user + 2 ^ 61 * 8 ≤ b.raw + b.len) :=
  ⟨_, rfl, by decide, by decide⟩

end Verif.AlignedAlloc
