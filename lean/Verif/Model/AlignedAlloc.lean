/-!
Model of `yato::aligning_allocator` (`/repo/include/yato/aligning_allocator.h`).

Addresses are natural numbers, memory is a function from addresses to bytes.  `size_t` computations on lengths are done
modulo `2^64`; pointer arithmetic inside one block is not wrapped (a block lies inside the address space).
`operator new` is a parameter: it returns any address `raw` of a block of the requested length; `std::bad_alloc` is not
modelled.  `YATO_ASSERT`/`narrow_cast` checks are no-ops (release build).
-/
set_option autoImplicit false

namespace Verif.AlignedAlloc

/-- Platform parameters: `alignof` of the unsigned integer of `w` bytes and `alignof(std::max_align_t)`. -/
structure Abi where
  alignOf : Nat → Nat
  maxAlign : Nat

abbrev Mem := Nat → Nat

def sizeMax : Nat := 2 ^ 64

/-- `get_extra_length<Align_, OffsetType_>::value` (l.19-22), a `size_t` constant; `w = sizeof(OffsetType_)`. -/
def extraLength (abi : Abi) (align w : Nat) : Nat := (align - 1 + w + abi.alignOf w - 1) % sizeMax

/-- `select_offset_type<Align_, TypeSize_>` (l.24-45): the first unsigned type of 8, 16, 32, 64 bits whose maximum is at
least the extra length, as its size in bytes; `none` = `void` (the template does not compile). -/
def selectOffsetFrom (abi : Abi) (align : Nat) : List Nat → Option Nat
  | [] => none
  | w :: ws => if extraLength abi align w ≤ 256 ^ w - 1 then some w else selectOffsetFrom abi align ws

def selectOffset (abi : Abi) (align : Nat) : Option Nat := selectOffsetFrom abi align [1, 2, 4, 8]

/-- `ceil_address` (l.54-58); despite its name it rounds down. -/
def ceilAddress (p align : Nat) : Nat := (p / align) * align

/-- `get_offset_ptr` (l.60-64). -/
def offsetPtr (abi : Abi) (w aligned : Nat) : Nat := ceilAddress (aligned - w) (abi.alignOf w)

/-- Little-endian store of a `w`-byte unsigned integer (the value is reduced to the type's range by the conversion). -/
def store (mem : Mem) (p w v : Nat) : Mem :=
  fun a => if p ≤ a ∧ a < p + w then (v / 256 ^ (a - p)) % 256 else mem a

/-- Little-endian load of a `w`-byte unsigned integer. -/
def load (mem : Mem) (p : Nat) : Nat → Nat
  | 0 => 0
  | w + 1 => mem p + 256 * load mem (p + 1) w

/-- Result of an allocation: user pointer, the block obtained from `operator new` and the memory. -/
structure Block where
  user : Nat
  raw : Nat
  len : Nat
  mem : Mem

/-- The generic `allocate_aligned` (l.66-73), `n` objects of `size` bytes. -/
def allocateGeneric (abi : Abi) (align w size n raw : Nat) (mem : Mem) : Block :=
  let extra := extraLength abi align w                            -- l.52
  let len := (n * size + extra) % sizeMax                         -- l.68
  let aligned := ceilAddress (raw + extra) align                  -- l.69
  ⟨aligned, raw, len, store mem (offsetPtr abi w aligned) w (aligned - raw)⟩   -- l.71

/-- `((Align_ != 0) && !(Align_ & (Align_ - 1))) && Align_ <= alignof(max_align_t)` (l.85-88). -/
def isNative (abi : Abi) (align : Nat) : Bool :=
  decide (align ≠ 0 ∧ align &&& (align - 1) = 0 ∧ align ≤ abi.maxAlign)

/-- `sizeof(std::aligned_storage<size, align>::type)`: `size` rounded up to a multiple of `align`. -/
def storageSize (align size : Nat) : Nat := (size + align - 1) / align * align

/-- `aligning_allocator::allocate` (l.169-173) with the three base classes (l.47-81, 84-102, 105-107); `none` if the
class does not compile for this alignment. -/
def allocate (abi : Abi) (align size n raw : Nat) (mem : Mem) : Option Block :=
  if isNative abi align then some ⟨raw, raw, n * storageSize align size, mem⟩     -- l.93-96
  else if align = 0 then none
  else (selectOffset abi align).map fun w => allocateGeneric abi align w size n raw mem

/-- The address passed to `operator delete[]` by `aligning_allocator::deallocate` (l.175-178, 75-80, 98-101). -/
def deallocate (abi : Abi) (align : Nat) (mem : Mem) (p : Nat) : Option Nat :=
  if isNative abi align then some p
  else if align = 0 then none
  else (selectOffset abi align).map fun w => p - load mem (offsetPtr abi w p) w

end Verif.AlignedAlloc
