import Verif.Lemmas.IntervalMap
import Mathlib.Data.Int.Order.Basic

/-! C01, C02: `interval_map` lookups and minimality. -/
set_option autoImplicit false

namespace Verif.IntervalMap

variable {K V : Type} [LinearOrder K] [DecidableEq V]

/-- Specification of a lookup: value of the last call `(b, e, v)` with `b ≤ k < e`, else the default. -/
def specLookup (dflt : V) (calls : List (K × K × V)) (k : K) : V :=
  match calls.reverse.find? (fun c => decide (c.1 ≤ k ∧ k < c.2.1)) with
  | some c => c.2.2
  | none => dflt

theorem run_append (lowest : K) (d : V) (ops : List (K × K × V)) (c : K × K × V) :
    run lowest d (ops ++ [c]) = (run lowest d ops).bind (fun m => assign m c.1 c.2.1 c.2.2) := by
  simp [run, List.foldl_append]

theorem run_spec (lowest : K) (d : V) (ops : List (K × K × V)) (hops : ∀ c ∈ ops, lowest ≤ c.1) :
    ∃ m, run lowest d ops = some m ∧ WF lowest m ∧
      ∀ k, lowest ≤ k → lookup m k = some (specLookup d ops k) := by
  induction ops using List.reverseRecOn with
  | nil =>
    refine ⟨init lowest d, rfl, init_wf lowest d, ?_⟩
    intro k hk
    have := lookup_split (L := [(lowest, d)]) (R := []) (k := k) (by simp [Sorted]) (by simpa using hk) (by simp)
    simpa [init, specLookup] using this
  | append_singleton ops c ih =>
    obtain ⟨m, hm, hwf, hl⟩ := ih (fun x hx => hops x (by simp [hx]))
    have hc : lowest ≤ c.1 := hops c (by simp)
    rw [run_append, hm, Option.bind_some]
    by_cases hlt : c.1 < c.2.1
    · obtain ⟨m', hm', hwf', hl'⟩ := assign_lookup (v := c.2.2) hwf hc hlt
      refine ⟨m', hm', hwf', ?_⟩
      intro k hk
      rw [hl' k hk, hl k hk]
      by_cases hcov : c.1 ≤ k ∧ k < c.2.1
      · simp [specLookup, hcov]
      · simp [specLookup, hcov]
    · refine ⟨m, by simp [assign, hlt], hwf, ?_⟩
      intro k hk
      rw [hl k hk]
      have : ¬ (c.1 ≤ k ∧ k < c.2.1) := fun h => hlt (lt_of_le_of_lt h.1 h.2)
      simp [specLookup, this]

/-- **C01.** After any list of `assign` calls (with begin keys not below `numeric_limits<K>::lowest()`), no call was
undefined and the lookup of any key `k ≥ lowest` is the value of the last call covering `k`, else the default. -/
theorem C01_lookup_is_last_covering_assign (lowest : K) (d : V) (calls : List (K × K × V))
    (hcalls : ∀ c ∈ calls, lowest ≤ c.1) :
    ∃ m, run lowest d calls = some m ∧ ∀ k, lowest ≤ k → lookup m k = some (specLookup d calls k) := by
  obtain ⟨m, h1, -, h2⟩ := run_spec lowest d calls hcalls
  exact ⟨m, h1, h2⟩

/-- **C01**, empty intervals: a call with `!(b < e)` leaves the map as it is. -/
theorem C01_empty_interval_is_noop (lowest : K) (d : V) (calls : List (K × K × V)) (b e : K) (v : V) (h : ¬ b < e) :
    run lowest d (calls ++ [(b, e, v)]) = run lowest d calls := by
  rw [run_append]
  cases run lowest d calls <;> simp [assign, h]

/-- **C02.** After any list of `assign` calls the nodes are strictly ascending, the first key is the lowest one,
adjacent nodes carry different values, and no sorted node list starting at `lowest` that gives the same lookups has
fewer nodes. -/
theorem C02_partition_is_minimal (lowest : K) (d : V) (calls : List (K × K × V))
    (hcalls : ∀ c ∈ calls, lowest ≤ c.1) :
    ∃ m, run lowest d calls = some m ∧
      m.Pairwise (fun a b => a.1 < b.1) ∧ (m.head?).map Prod.fst = some lowest ∧
      m.IsChain (fun a b => a.2 ≠ b.2) ∧
      ∀ m' : Nodes K V, m'.Pairwise (fun a b => a.1 < b.1) → m'.head?.map Prod.fst = some lowest →
        (∀ k, lowest ≤ k → lookup m' k = lookup m k) → m.length ≤ m'.length := by
  obtain ⟨m, h1, hwf, -⟩ := run_spec lowest d calls hcalls
  refine ⟨m, h1, hwf.sorted, hwf.head, hwf.chain, ?_⟩
  intro m' hs' hh' heq
  have hsub := hwf.keys_subset hs' hh' (fun k hk => (heq k hk).symm)
  have hnd := Sorted.nodup_keys hwf.sorted
  have : (m.map Prod.fst) ⊆ (m'.map Prod.fst) := by
    intro k hk
    obtain ⟨e, he, rfl⟩ := List.mem_map.1 hk
    exact hsub e he
  have := (List.subperm_of_subset hnd this).length_le
  simpa using this

/-! Non-vacuity: a concrete history on integer keys, splitting, overwriting and joining intervals. -/

example : run (-100 : Int) 'a' [(0, 10, 'b'), (5, 20, 'c'), (7, 7, 'z'), (10, 12, 'a'), (3, 9, 'b')]
    = some [(-100, 'a'), (0, 'b'), (9, 'c'), (10, 'a'), (12, 'c'), (20, 'a')] := by decide

example : ∀ c ∈ [((0 : Int), (10 : Int), 'b'), (5, 20, 'c'), (7, 7, 'z'), (10, 12, 'a'), (3, 9, 'b')],
    (-100 : Int) ≤ c.1 := by decide

/-- A key below `numeric_limits<K>::lowest()` (possible for floating point keys: `-inf`) is undefined behaviour:
`--begin()`. -/
example : lookup (init (0 : Int) 'a') (-1) = none := by decide

/-- … and so is assigning an interval that ends at or below it. -/
example : assign (init (0 : Int) 'a') (-2) (-1) 'b' = none := by decide

end Verif.IntervalMap
