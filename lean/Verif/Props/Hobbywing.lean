import Verif.Model.Hobbywing
import Verif.Props.Prim

/-!
# The commands of the example for Hobbywing ESCs (C164)
-/

namespace Dronecan
namespace Hobbywing

/-! ## Specification -/

/-- An unsigned or signed integer field that can hold a number. -/
def Holds (p : PrimTy) (n : Int) : Prop :=
  (p.kind = .unsigned ∧ 1 ≤ p.bitlen ∧ 0 ≤ n ∧ n < 2 ^ p.bitlen) ∨
  (p.kind = .signed ∧ 1 ≤ p.bitlen ∧ p.bitlen ≤ 53 ∧ -2 ^ (p.bitlen - 1) ≤ n ∧ n < 2 ^ (p.bitlen - 1))

/-- The fields read as these numbers. -/
inductive Reads : List PrimTy → List Bits → List Int → Prop where
  | nil : Reads [] [] []
  | cons {p ps b bs n ns} : getInt p b = some n → Reads ps bs ns → Reads (p :: ps) (b :: bs) (n :: ns)

/-- The fields can hold these numbers. -/
inductive Fits : List PrimTy → List Int → Prop where
  | nil : Fits [] []
  | cons {p ps n ns} : Holds p n → Fits ps ns → Fits (p :: ps) (n :: ns)

/-- The commands whose arguments are the fields of a request. -/
def Plain (c : Command) : Prop := c ≠ .setBaud ∧ c ≠ .setReportingFrequency ∧ c ≠ .getEscId ∧ c ≠ .rawCommand

/-- How many arguments the usage texts ask for. -/
def arity : Command → Nat
  | .setBaud => 1
  | .getEscId => 1
  | .getInfo => 1
  | .getMaintenance => 1
  | .getMajorConfig => 1
  | .setId => 2
  | .setLed => 3
  | .setAngle => 2
  | .selfTest => 0
  | .setReportingFrequency => 2
  | .setDirection => 1
  | .rawCommand => 1

/-- A bit rate that does not exist is answered by those that exist. -/
def C164_statement : Prop := ∀ (d : Definitions) (b : Int), b ∉ [1000000, 500000, 250000, 200000, 100000, 50000] →
  run d .setBaud [some b] = .invalid [1000000, 500000, 250000, 200000, 100000, 50000]

/-! ## Proofs -/

theorem needed_eq (c : Command) : needed c = arity c := by cases c <;> rfl

theorem set_holds {p : PrimTy} {n : Int} (h : Holds p n) : ∃ b, setInt p n = .ok b ∧ getInt p b = some n := by
  have key : assignRead p n = .ok (some n) := by
    obtain ⟨k, m, t⟩ := p
    rcases h with ⟨hk, h1, h2, h3⟩ | ⟨hk, h1, h53, h2, h3⟩
    · simp only at hk h1 h3
      subst hk
      cases t
      · rw [C03_unsigned_saturated m h1, show max 0 (min n (2 ^ m - 1)) = n by omega]
      · rw [C03_unsigned_truncated m h1, Int.emod_eq_of_lt h2 h3]
    · simp only at hk h1 h53 h2 h3
      subst hk
      cases t
      · rw [C04_signed_saturated_partial m h1 h53, show max (-2 ^ (m - 1)) (min n (2 ^ (m - 1) - 1)) = n by omega]
      · rw [C04_signed_truncated m h1, bmod_eq_self m _ h1 h2 h3]
  simp only [assignRead] at key
  cases hs : setInt p n with
  | error e => rw [hs] at key; cases key
  | ok b =>
    rw [hs] at key
    injection key with key
    exact ⟨b, rfl, key⟩

theorem assign_fits {ps : List PrimTy} {ns : List Int} (h : Fits ps ns) : ∃ bs, assign ps (ns.map some) = .ok bs ∧ Reads ps bs ns := by
  induction h with
  | nil => exact ⟨[], rfl, .nil⟩
  | cons h _ ih =>
    obtain ⟨b, h1, h2⟩ := set_holds h
    obtain ⟨bs, h3, h4⟩ := ih
    exact ⟨b :: bs, by simp only [List.map_cons, assign, h1, h3], .cons h2 h4⟩

/-- **C164**: a command whose arguments are numbers that the fields can hold sends one request, and its fields read as the arguments. -/
theorem C164_partial (d : Definitions) (c : Command) (hc : Plain c) (ns : List Int) (more : List (Option Int)) (hl : ns.length = arity c)
    (h : Fits (d.fields c) ns) : ∃ bs, run d c (ns.map some ++ more) = .request c bs ∧ Reads (d.fields c) bs ns := by
  rw [← needed_eq] at hl
  obtain ⟨bs, h1, h2⟩ := assign_fits h
  refine ⟨bs, ?_, h2⟩
  have ht : (ns.map some ++ more).take (needed c) = ns.map some := by
    rw [List.take_append_of_le_length (by simp; omega), List.take_of_length_le (by simp; omega)]
  simp only [run]
  rw [if_neg (by simp; omega)]
  obtain ⟨c1, c2, c3, c4⟩ := hc
  cases c <;> first | exact absurd rfl c1 | exact absurd rfl c2 | exact absurd rfl c3 | exact absurd rfl c4 | (simp only [ht, h1, send])

/-- **C164** (bit rates): each stands for the constant of its name. -/
theorem C164_baud (d : Definitions) (k : Nat) (b : Int) (hb : [1000000, 500000, 250000, 200000, 100000, 50000][k]? = some b) (more : List (Option Int))
    (h : Fits (d.fields .setBaud) [d.baud k]) : ∃ bs, run d .setBaud (some b :: more) = .request .setBaud bs ∧ Reads (d.fields .setBaud) bs [d.baud k] := by
  obtain ⟨bs, h1, h2⟩ := assign_fits h
  refine ⟨bs, ?_, h2⟩
  have hk : b ∈ bauds ∧ bauds.idxOf b = k := by
    have : k < 6 := by
      have := (List.getElem?_eq_some_iff.mp hb).1
      simpa using this
    have : k = 0 ∨ k = 1 ∨ k = 2 ∨ k = 3 ∨ k = 4 ∨ k = 5 := by omega
    rcases this with rfl | rfl | rfl | rfl | rfl | rfl <;> (simp at hb; subst hb; decide +kernel)
  simp only [run, List.headD_cons, if_pos hk.1, hk.2]
  rw [if_neg (by simp [needed])]
  rw [show assign (d.fields .setBaud) [some (d.baud k)] = .ok bs from h1]
  rfl

/-- **C164** (frequencies): the request says that the frequency is to be written, which message is meant, and the constant. -/
theorem C164_frequency (d : Definitions) (k : Nat) (id r : Int) (hr : [500, 250, 200, 100, 50, 20, 10, 1][k]? = some r) (more : List (Option Int))
    (h : Fits (d.fields .setReportingFrequency) [d.write, id, d.rate k]) :
    ∃ bs, run d .setReportingFrequency (some id :: some r :: more) = .request .setReportingFrequency bs ∧
      Reads (d.fields .setReportingFrequency) bs [d.write, id, d.rate k] := by
  obtain ⟨bs, h1, h2⟩ := assign_fits h
  refine ⟨bs, ?_, h2⟩
  have hk : r ∈ rates ∧ rates.idxOf r = k := by
    have : k < 8 := by
      have := (List.getElem?_eq_some_iff.mp hr).1
      simpa using this
    have : k = 0 ∨ k = 1 ∨ k = 2 ∨ k = 3 ∨ k = 4 ∨ k = 5 ∨ k = 6 ∨ k = 7 := by omega
    rcases this with rfl | rfl | rfl | rfl | rfl | rfl | rfl | rfl <;> (simp at hr; subst hr; decide +kernel)
  have h0 : ∃ b, assign (d.fields .setReportingFrequency) [some d.write, some id] = .ok b := by
    generalize d.fields .setReportingFrequency = ps at h
    rcases h with _ | ⟨a, h⟩
    rcases h with _ | ⟨b, h⟩
    obtain ⟨x, x1, -⟩ := set_holds a
    obtain ⟨y, y1, -⟩ := set_holds b
    exact ⟨[x, y], by simp only [assign, x1, y1]⟩
  obtain ⟨b0, h0⟩ := h0
  simp only [run, List.headD_cons, List.tail_cons, if_pos hk.1, hk.2, h0]
  rw [if_neg (by simp [needed])]
  rw [show assign (d.fields .setReportingFrequency) [some d.write, some id, some (d.rate k)] = .ok bs from h1]
  rfl

theorem items_fits (p : PrimTy) (ns : List Int) (h : ∀ n ∈ ns, Holds p n) : ∃ bs, items p (ns.map some) = .ok bs ∧ Reads (ns.map fun _ => p) bs ns := by
  have hf : Fits (ns.map fun _ => p) ns := by
    induction ns with
    | nil => exact .nil
    | cons n ns ih => exact .cons (h n List.mem_cons_self) (ih fun m hm => h m (List.mem_cons_of_mem _ hm))
  obtain ⟨bs, h1, h2⟩ := assign_fits hf
  refine ⟨bs, ?_, h2⟩
  simp only [items]
  rw [if_neg (by simp), List.map_map]
  exact h1

/-- **C164** (throttles): the array that is broadcast has the arguments as its elements. -/
theorem C164_raw (d : Definitions) (p : PrimTy) (hp : d.fields .rawCommand = [p]) (ns : List Int) (h0 : ns ≠ []) (h : ∀ n ∈ ns, Holds p n) :
    ∃ bs, run d .rawCommand (ns.map some) = .broadcast .rawCommand bs ∧ Reads (ns.map fun _ => p) bs ns := by
  obtain ⟨bs, h1, h2⟩ := items_fits p ns h
  refine ⟨bs, ?_, h2⟩
  have : 0 < ns.length := List.length_pos_iff.mpr h0
  simp only [run, hp, List.headD_cons, h1, send]
  rw [if_neg (by simp [needed]; omega)]

/-- **C164** (identifiers of ESCs): the array that is broadcast has the first argument as its only element. -/
theorem C164_ids (d : Definitions) (p : PrimTy) (hp : d.fields .getEscId = [p]) (n : Int) (more : List (Option Int)) (h : Holds p n) :
    ∃ b, run d .getEscId (some n :: more) = .broadcast .getEscId [b] ∧ getInt p b = some n := by
  obtain ⟨b, h1, h2⟩ := set_holds h
  refine ⟨b, ?_, h2⟩
  simp [run, hp, needed, items, assign, h1, send]

/-- **C164** (too few arguments): nothing is sent, the usage is printed. -/
theorem C164_usage (d : Definitions) (c : Command) (args : List (Option Int)) : run d c args = .usage ↔ args.length < arity c := by
  rw [← needed_eq]
  constructor
  · intro h
    refine Decidable.byContradiction fun hn => ?_
    have hs : ∀ (f : List Bits → Outcome) (x : Except Err (List Bits)), (∀ b, f b ≠ .usage) → send f x ≠ .usage := by
      intro f x hf
      cases x with
      | error e => exact (fun h => nomatch h)
      | ok b => exact hf b
    simp only [run] at h
    rw [if_neg hn] at h
    revert h
    cases c <;> simp only
    case setBaud =>
      split
      · exact (fun h => nomatch h)
      · split
        · exact hs _ _ (fun _ h => nomatch h)
        · exact (fun h => nomatch h)
    case setReportingFrequency =>
      split
      · exact (fun h => nomatch h)
      · split
        · exact (fun h => nomatch h)
        · split
          · exact hs _ _ (fun _ h => nomatch h)
          · exact (fun h => nomatch h)
    all_goals exact hs _ _ (fun _ h => nomatch h)
  · intro h
    simp only [run, if_pos h]

/-- **C164** (an argument that is no number): `int` raises and nothing is sent. -/
theorem C164_number (d : Definitions) (c : Command) (hc : Plain c) (ns : List Int) (more : List (Option Int)) (hl : ns.length < arity c)
    (ps : List PrimTy) (p : PrimTy) (qs : List PrimTy) (hd : d.fields c = ps ++ p :: qs) (h : Fits ps ns) (hm : arity c ≤ ns.length + 1 + more.length) :
    run d c (ns.map some ++ none :: more) = .raised .valueError := by
  rw [← needed_eq] at hl hm
  have ha : ∀ {ps : List PrimTy} {ns : List Int} (_ : Fits ps ns) (rest : List (Option Int)),
      assign (ps ++ p :: qs) (ns.map some ++ none :: rest) = .error .valueError := by
    intro ps ns h rest
    induction h with
    | nil => rfl
    | cons h _ ih =>
      obtain ⟨b, h1, -⟩ := set_holds h
      simp only [List.cons_append, List.map_cons, assign, h1, ih]
  have ht : (ns.map some ++ none :: more).take (needed c) = ns.map some ++ none :: more.take (needed c - ns.length - 1) := by
    rw [List.take_append, List.take_of_length_le (by simp; omega), List.length_map]
    congr 1
    rw [show needed c - ns.length = (needed c - ns.length - 1) + 1 by omega, List.take_succ_cons]
    rfl
  simp only [run]
  rw [if_neg (by simp; omega)]
  obtain ⟨c1, c2, c3, c4⟩ := hc
  cases c <;> first | exact absurd rfl c1 | exact absurd rfl c2 | exact absurd rfl c3 | exact absurd rfl c4 | (simp only [ht, hd, ha h, send])

/-- **C164** (a throttle that is no number): nothing is sent. -/
theorem C164_raw_number (d : Definitions) (args : List (Option Int)) (h : none ∈ args) : run d .rawCommand args = .raised .valueError := by
  have : 0 < args.length := List.length_pos_of_mem h
  simp only [run, items, if_pos h, send]
  rw [if_neg (show ¬ args.length < needed .rawCommand from by simp only [needed]; omega)]

/-- What happens instead of the answer: `','.join` refuses integers. -/
theorem C164_invalid (d : Definitions) (b : Int) (hb : b ∉ [1000000, 500000, 250000, 200000, 100000, 50000]) (more : List (Option Int)) :
    run d .setBaud (some b :: more) = .raised .typeError := by
  simp only [run, List.headD_cons]
  rw [if_neg (by simp [needed]), if_neg (show b ∉ bauds from hb)]

theorem C164_invalid_frequency (d : Definitions) (id r : Int) (hr : r ∉ [500, 250, 200, 100, 50, 20, 10, 1]) (p q : PrimTy) (ps : List PrimTy)
    (hd : d.fields .setReportingFrequency = p :: q :: ps) (h1 : Holds p d.write) (h2 : Holds q id) (more : List (Option Int)) :
    run d .setReportingFrequency (some id :: some r :: more) = .raised .typeError := by
  obtain ⟨x, x1, -⟩ := set_holds h1
  obtain ⟨y, y1, -⟩ := set_holds h2
  have : assign (p :: q :: ps) [some d.write, some id] = .ok [x, y] := by
    cases ps <;> simp only [assign, x1, y1]
  simp only [run, List.headD_cons, List.tail_cons, hd, this]
  rw [if_neg (by simp [needed]), if_neg (show r ∉ rates from hr)]

theorem C164_counterexample : ¬ C164_statement := by
  intro h
  have a := h ⟨fun _ => [⟨.unsigned, 8, false⟩], fun k => k, 1, fun k => k⟩ 7 (by decide)
  rw [C164_invalid _ _ (by decide)] at a
  exact (fun h => nomatch h) a

/-- Definitions with fields of eight bits. -/
def bytes : Definitions where
  fields c := match c with
    | .setId | .setAngle => [⟨.unsigned, 8, false⟩, ⟨.unsigned, 8, false⟩]
    | .setLed | .setReportingFrequency => [⟨.unsigned, 8, false⟩, ⟨.unsigned, 8, false⟩, ⟨.unsigned, 8, false⟩]
    | .selfTest => []
    | _ => [⟨.unsigned, 8, false⟩]
  baud k := k
  write := 1
  rate k := k

example : run bytes .setId [some 5, some 2] = .request .setId [formatBin 8 5, formatBin 8 2] ∧ Fits (bytes.fields .setId) [5, 2] ∧ Plain .setId ∧
    run bytes .setId [some 5] = .usage ∧ run bytes .setId [some 5, none] = .raised .valueError ∧
    run bytes .setBaud [some 250000] = .request .setBaud [formatBin 8 2] ∧
    run bytes .setReportingFrequency [some 9, some 50] = .request .setReportingFrequency [formatBin 8 1, formatBin 8 9, formatBin 8 4] ∧
    run bytes .rawCommand [some 1, some 2, some 3] = .broadcast .rawCommand [formatBin 8 1, formatBin 8 2, formatBin 8 3] ∧
    run bytes .getEscId [some 1, some 2] = .broadcast .getEscId [formatBin 8 1] ∧ run bytes .selfTest [] = .request .selfTest [] :=
  ⟨by decide +kernel, .cons (.inl (by decide)) (.cons (.inl (by decide)) .nil), by simp [Plain], by decide +kernel, by decide +kernel, by decide +kernel,
    by decide +kernel, by decide +kernel, by decide +kernel, by decide +kernel⟩

end Hobbywing
end Dronecan
