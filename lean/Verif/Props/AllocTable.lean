import Verif.Props.Allocator

/-!
# The allocation table is a faithful store (C69)
-/

namespace Dronecan
namespace Alloc

/-! ## Specification -/

/-- A call of `set`. -/
structure SetCall where
  uid : Option (List Byte)
  nodeId : Nat
  time : Int
  deriving DecidableEq

/-- The last call for the node ID. -/
def lastFor (n : Nat) (calls : List SetCall) : Option SetCall := (calls.filter (·.nodeId = n)).getLast?

/-- What the call says about the device: all zeros means that it is not known. -/
def SetCall.device (x : SetCall) : Option (List Byte) := x.uid.filter fun u => decide (NonZero u)

/-- The table after the calls. -/
def afterCalls (calls : List SetCall) : Table := calls.foldl (fun t x => t.set x.uid x.nodeId x.time) []

/-! ## Proofs -/

theorem stored_device (x : SetCall) : stored x.uid = x.device := by
  unfold stored SetCall.device
  cases x.uid with
  | none => rfl
  | some u =>
    simp only [Option.filter]
    by_cases h : NonZero u
    · simp [h, isZero_iff.2 h]
    · have : isZero u = true := by
        cases hz : isZero u with
        | true => rfl
        | false => exact absurd (isZero_iff.1 hz) h
      simp [h, this]

theorem afterCalls_snoc (calls : List SetCall) (x : SetCall) :
    afterCalls (calls ++ [x]) = (afterCalls calls).set x.uid x.nodeId x.time := by simp [afterCalls]

theorem lastFor_snoc (n : Nat) (calls : List SetCall) (x : SetCall) :
    lastFor n (calls ++ [x]) = if x.nodeId = n then some x else lastFor n calls := by
  unfold lastFor
  by_cases h : x.nodeId = n <;> simp [h]

/-- The rows are the last calls. -/
theorem mem_afterCalls (calls : List SetCall) :
    Keyed (afterCalls calls) ∧
      ∀ r, r ∈ afterCalls calls ↔ ∃ x, lastFor r.nodeId calls = some x ∧ r.uid = x.device ∧ r.ts = x.time := by
  generalize hn : calls.length = n
  induction n generalizing calls with
  | zero =>
    rw [List.length_eq_zero_iff.1 hn]
    exact ⟨List.nodup_nil, fun r => by simp [afterCalls, lastFor]⟩
  | succ n ih =>
    obtain ⟨l, x, rfl⟩ : ∃ l x, calls = l ++ [x] := by
      have : calls ≠ [] := fun h => by subst h; cases hn
      exact ⟨_, _, (List.dropLast_concat_getLast this).symm⟩
    obtain ⟨hk, hm⟩ := ih l (by simpa using hn)
    refine ⟨by rw [afterCalls_snoc]; exact keyed_set hk _ _ _, fun r => ?_⟩
    rw [afterCalls_snoc, set_mem, lastFor_snoc, stored_device, hm]
    by_cases h : x.nodeId = r.nodeId
    · rw [if_pos h]
      constructor
      · rintro (⟨-, h1⟩ | rfl)
        · exact absurd h.symm h1
        · exact ⟨x, rfl, rfl, rfl⟩
      · rintro ⟨y, hy, h1, h2⟩
        injection hy with hy
        subst hy
        obtain ⟨a, b, c⟩ := r
        simp only at h h1 h2
        subst h; subst h1; subst h2
        exact .inr rfl
    · rw [if_neg h]
      constructor
      · rintro (⟨h1, -⟩ | rfl)
        · exact h1
        · exact absurd rfl h
      · intro h1
        exact .inl ⟨h1, fun h2 => h h2.symm⟩

theorem getNodeId_latest {choose : List Row → Nat} {t : Table} {u : List Byte} {i : Nat}
    (h : t.getNodeId choose u = some i) :
    ∃ r ∈ t, r.nodeId = i ∧ r.uid = some u ∧ ∀ r' ∈ t, r'.uid = some u → r'.ts ≤ r.ts := by
  simp only [Table.getNodeId, Option.map_eq_some_iff] at h
  obtain ⟨r, h1, h2⟩ := h
  obtain ⟨h3, h5⟩ := List.mem_filter.1 (List.mem_of_getElem? h1)
  obtain ⟨h3, h4⟩ := List.mem_filter.1 h3
  refine ⟨r, h3, h2, by simpa using h4, fun r' hr' hu => ?_⟩
  have := List.all_eq_true.1 h5 r' (List.mem_filter.2 ⟨hr', by simp [hu]⟩)
  simpa using this

/-! ## Theorems -/

/-- `is_known_node_id` tells exactly the node IDs that were set. -/
theorem C69_known (calls : List SetCall) (n : Nat) :
    (afterCalls calls).isKnown n = true ↔ ∃ x ∈ calls, x.nodeId = n := by
  rw [isKnown_iff]
  constructor
  · rintro ⟨r, hr, rfl⟩
    obtain ⟨x, hx, -, -⟩ := ((mem_afterCalls calls).2 r).1 hr
    have := List.mem_of_getLast? hx
    simp only [List.mem_filter, decide_eq_true_eq] at this
    exact ⟨x, this.1, this.2⟩
  · rintro ⟨x, hx, rfl⟩
    have hne : calls.filter (·.nodeId = x.nodeId) ≠ [] := List.ne_nil_of_mem (List.mem_filter.2 ⟨hx, by simp⟩)
    exact ⟨⟨x.nodeId, _, _⟩, ((mem_afterCalls calls).2 _).2 ⟨_, List.getLast?_eq_some_getLast hne, rfl, rfl⟩, rfl⟩

/-- `get_unique_id` returns what the last `set` for the node ID said. -/
theorem C69_unique_id (calls : List SetCall) (n : Nat) :
    (afterCalls calls).getUniqueId n = (lastFor n calls).bind (·.device) := by
  obtain ⟨hk, hm⟩ := mem_afterCalls calls
  cases hl : lastFor n calls with
  | some x => exact getUniqueId_mem hk ((hm ⟨n, x.device, x.time⟩).2 ⟨x, hl, rfl, rfl⟩)
  | none =>
    unfold Table.getUniqueId
    cases hf : (afterCalls calls).find? (·.nodeId == n) with
    | none => rfl
    | some r =>
      have h1 := List.mem_of_find?_eq_some hf
      have h2 := List.find?_some hf
      simp only [beq_iff_eq] at h2
      obtain ⟨x, hx, -⟩ := (hm r).1 h1
      rw [h2, hl] at hx
      cases hx

/-- A node ID that `get_node_id` returns was last set to the device, no other node ID was set to the device later (in
its own last `set`), and the device has a unique ID. -/
theorem C69_node_id (choose : List Row → Nat) (calls : List SetCall) (u : List Byte) (n : Nat)
    (h : (afterCalls calls).getNodeId choose u = some n) :
    NonZero u ∧ ∃ x, lastFor n calls = some x ∧ x.uid = some u ∧
      ∀ m y, lastFor m calls = some y → y.uid = some u → y.time ≤ x.time := by
  obtain ⟨r, hr, rfl, hu, hlate⟩ := getNodeId_latest h
  obtain ⟨-, hm⟩ := mem_afterCalls calls
  obtain ⟨x, hx, hd, ht⟩ := (hm r).1 hr
  rw [hu] at hd
  have hd' := Option.filter_eq_some_iff.1 hd.symm
  have hz : NonZero u := by simpa using hd'.2
  refine ⟨hz, x, hx, hd'.1, fun m y hy hyu => ?_⟩
  rw [← ht]
  refine hlate ⟨m, some u, y.time⟩ ((hm _).2 ⟨y, hy, ?_, rfl⟩) rfl
  simp [SetCall.device, hyu, Option.filter, hz]

/-- It returns one whenever there is one. -/
theorem C69_found (choose : List Row → Nat) (calls : List SetCall) (u : List Byte) (m : Nat) (y : SetCall)
    (hy : lastFor m calls = some y) (hu : y.uid = some u) (hz : NonZero u) :
    ∃ n, (afterCalls calls).getNodeId choose u = some n :=
  getNodeId_isSome (((mem_afterCalls calls).2 ⟨m, some u, y.time⟩).2
    ⟨y, hy, by simp [SetCall.device, hu, Option.filter, hz], rfl⟩) rfl

/-- Device 1 as node 5, then as node 7; node 5 becomes device 2, node 9 has no unique ID. -/
def exampleCalls : List SetCall :=
  [⟨some [1, 0], 5, 10⟩, ⟨some [1, 0], 7, 20⟩, ⟨some [2, 0], 5, 30⟩, ⟨some [0, 0], 9, 40⟩, ⟨some [1, 0], 8, 15⟩]

example : (afterCalls exampleCalls).isKnown 9 = true ∧ (afterCalls exampleCalls).isKnown 6 = false ∧
    (afterCalls exampleCalls).getUniqueId 5 = some [2, 0] ∧ (afterCalls exampleCalls).getUniqueId 9 = none ∧
    (afterCalls exampleCalls).getNodeId (fun _ => 0) [1, 0] = some 7 ∧
    (afterCalls exampleCalls).getNodeId (fun _ => 0) [0, 0] = none := by decide +kernel

example : lastFor 7 exampleCalls = some ⟨some [1, 0], 7, 20⟩ ∧ NonZero [1, 0] := by decide +kernel

end Alloc
end Dronecan
