import Verif.Model.McastUrl
import Verif.Props.Mcast
import Verif.Props.FileNames

/-!
# The URLs of the multicast driver (C122)
-/

namespace Dronecan
namespace McastUrl
open Parser Text MakeDriver Mcast

/-! ## Specification -/

/-- The documented URLs (mcast.py:9, 22-25): nothing means the first bus, a number the bus of that number; the address has 8 bits for it. -/
def Means (url : Str) (n : Nat) : Prop := (url = [] ∧ n = 0) ∨ (url = decimal n ∧ n < 256)

/-- The group of a bus. -/
def group (n : Nat) : List Nat := [239, 65, 82, n]

/-- What the system reads from the argument of `IP_ADD_MEMBERSHIP`: the group, the address of the interface and, if there is room for it,
the number of the interface (ip(7), `struct ip_mreqn`). -/
def Joins (arg g : List Nat) : Prop :=
  arg.take 4 = g ∧ 8 ≤ arg.length ∧ (arg.drop 4).take 4 = [0, 0, 0, 0] ∧ (12 ≤ arg.length → (arg.drop 8).take 4 = [0, 0, 0, 0])

/-- The sockets are on the bus: they are a member of its group on the default interface, hear nothing else or everything, and send to it. -/
def On (s : Sockets) (n : Nat) : Prop :=
  Joins s.membership (group n) ∧ (s.bound = group n ∨ s.bound = [0, 0, 0, 0]) ∧ s.target = group n ∧ s.port = 57732

/-- A device name that begins with `mcast:` gives a driver on the bus that the rest of the name means, or an exception. -/
def C122_statement : Prop :=
  ∀ (m : Machine) (kw : Kwargs) (windows : Bool) (long : Nat) (url : Str), (long = 4 ∨ long = 8) →
    (∃ e, makeDriver m ("mcast:".toList ++ url) kw = .error e) ∨
    (∃ kw' n s, makeDriver m ("mcast:".toList ++ url) kw = .ok (.mcast url kw') ∧ Means url n ∧
      connect windows long url = .ok s ∧ On s n)

/-! ## Lemmas -/

theorem decimal_no_colon (n : Nat) : ':' ∉ decimal n := fun h => absurd (decimal_isDigit n _ h) (by decide)

theorem decimal_ne_nil (n : Nat) : decimal n ≠ [] := by
  obtain ⟨c, cs, h, -⟩ := decimal_head_digit n
  rw [h]; simp

theorem splitOn_none (sep : Char) (s : Str) (h : sep ∉ s) : splitOn sep s = [s] := by
  have := splitOnAux_last sep s h []
  simpa [splitOn] using this

theorem splitOn_one (sep : Char) (s a : Str) (h : splitOn sep s = [a]) : sep ∉ s ∧ a = s := by
  have h1 := joinWith_splitOn sep s
  have h2 := splitOn_no_sep sep s a (h ▸ List.mem_cons_self)
  rw [h] at h1
  simp only [joinWith] at h1
  exact ⟨h1 ▸ h2, h1⟩

theorem octet_decimal (n : Nat) : octet (decimal n) = if n < 256 then some n else none := by
  unfold octet
  rw [if_pos (all_digits n), digits_complete 10 _ n (digits_decimal n)]

theorem octet_minus (s : Str) : octet ('-' :: s) = none := by
  unfold octet
  rw [if_neg]
  simp [isDigit]

theorem splitOn_address (n : Int) : splitOn '.' (address n) = [lit "239", lit "65", lit "82", formatU n] := by
  have h : '.' ∉ formatU n := by
    unfold formatU
    split
    · intro hm
      rcases List.mem_cons.1 hm with hm | hm
      · revert hm; decide
      · exact (decimal_no _).1 hm
    · exact (decimal_no _).1
  have e : address n = joinWith ['.'] [lit "239", lit "65", lit "82", formatU n] := rfl
  rw [e, splitOn_joinWith '.' _ (by simp)]
  intro p hp
  simp only [List.mem_cons, List.not_mem_nil, or_false] at hp
  rcases hp with rfl | rfl | rfl | rfl
  · decide
  · decide
  · decide
  · exact h

/-- The address of a bus can be read if the number has 8 bits. -/
theorem inetAton_address (n : Int) : inetAton (address n) = if 0 ≤ n ∧ n < 256 then some (group n.toNat) else none := by
  unfold inetAton
  rw [splitOn_address]
  have h1 : octet (lit "239") = some 239 := by decide +kernel
  have h2 : octet (lit "65") = some 65 := by decide +kernel
  have h3 : octet (lit "82") = some 82 := by decide +kernel
  simp only [List.map_cons, List.map_nil, h1, h2, h3]
  unfold formatU
  by_cases hn : n < 0
  · rw [if_pos hn, octet_minus, if_neg (by omega)]
  · rw [if_neg hn, octet_decimal]
    by_cases h : n < 256
    · rw [if_pos (by omega), if_pos ⟨by omega, h⟩]
      have : n.natAbs = n.toNat := by omega
      simp [group, this]
    · rw [if_neg (by omega), if_neg (by omega)]

theorem joins_mreq (long n : Nat) (h : long = 4 ∨ long = 8) : Joins (mreq long (group n)) (group n) := by
  rcases h with rfl | rfl <;> simp [Joins, mreq, group, List.replicate]

/-- The sockets for a group. -/
theorem connect_of_bus (windows : Bool) (long : Nat) (hl : long = 4 ∨ long = 8) (url : Str) (n : Nat) (hn : n < 256)
    (h : bus url = .ok (n : Int)) : ∃ s, connect windows long url = .ok s ∧ On s n := by
  have ha := inetAton_address (n : Int)
  rw [if_pos ⟨by omega, by omega⟩, Int.toNat_natCast] at ha
  simp only [connect, h, ha]
  exact ⟨_, rfl, joins_mreq long n hl, (by cases windows <;> simp), rfl, rfl⟩

theorem make_mcast (m : Machine) (kw : Kwargs) (url : Str) :
    makeDriver m ("mcast:".toList ++ url) kw = .ok (.mcast url kw) := by
  have p (s : Str) : "mcast:".toList ++ s = 'm' :: 'c' :: 'a' :: 's' :: 't' :: ':' :: s := rfl
  rw [p]
  simp [makeDriver, lit, List.isPrefixOf]

theorem bus_decimal (n : Nat) : bus (decimal n) = .ok (n : Int) := by
  unfold bus
  rw [splitOn_none ':' _ (decimal_no_colon n)]
  have : 0 < (decimal n).length := List.length_pos_iff.2 (decimal_ne_nil n)
  simp [this, int10_decimal]

/-! ## Theorems -/

/-- It is false: no name is refused. `mcast:1:2` means no bus and gives the first one. -/
theorem C122_counterexample : ¬ C122_statement := by
  intro h
  rcases h ⟨false, false, true, fun _ _ => .ok false⟩ {} false 8 (lit "1:2") (.inr rfl) with ⟨e, h⟩ | ⟨kw', n, s, -, h, -⟩
  · rw [make_mcast] at h; cases h
  · rcases h with ⟨h, -⟩ | ⟨h, -⟩
    · revert h; decide
    · exact decimal_no_colon n (h ▸ by decide)

/-- For the documented names it is true. -/
theorem C122_partial (m : Machine) (kw : Kwargs) (windows : Bool) (long : Nat) (hl : long = 4 ∨ long = 8) (url : Str) (n : Nat)
    (h : Means url n) : makeDriver m ("mcast:".toList ++ url) kw = .ok (.mcast url kw) ∧
    ∃ s, connect windows long url = .ok s ∧ On s n := by
  refine ⟨make_mcast m kw url, ?_⟩
  rcases h with ⟨rfl, rfl⟩ | ⟨rfl, hn⟩
  · exact connect_of_bus windows long hl _ 0 (by decide) (by decide +kernel)
  · exact connect_of_bus windows long hl _ n hn (bus_decimal n)

/-- Drivers for documented names send to the same group if and only if the names mean the same bus. -/
theorem C122_apart (w w' : Bool) (long long' : Nat) (hl : long = 4 ∨ long = 8) (hl' : long' = 4 ∨ long' = 8) (url url' : Str)
    (n n' : Nat) (h : Means url n) (h' : Means url' n') : ∃ s s', connect w long url = .ok s ∧ connect w' long' url' = .ok s' ∧
    (s.target = s'.target ↔ n = n') ∧ (s.membership.take 4 = s'.target ↔ n = n') := by
  obtain ⟨s, h1, h2⟩ := (C122_partial ⟨false, false, true, fun _ _ => .ok false⟩ {} w long hl url n h).2
  obtain ⟨s', h1', h2'⟩ := (C122_partial ⟨false, false, true, fun _ _ => .ok false⟩ {} w' long' hl' url' n' h').2
  refine ⟨s, s', h1, h1', ?_, ?_⟩
  · rw [h2.2.2.1, h2'.2.2.1]; simp [group]
  · rw [h2.1.1, h2'.2.2.1]; simp [group]

/-- What the driver makes of any other name: with a colon it is on the first bus, otherwise Python's `int` reads it; then it is on the bus of
that number, or `connect` raises. -/
theorem C122_exact (windows : Bool) (long : Nat) (hl : long = 4 ∨ long = 8) (url : Str) (hne : url ≠ []) :
    (':' ∈ url → ∃ s, connect windows long url = .ok s ∧ On s 0) ∧
    (':' ∉ url → ∀ n : Nat, n < 256 → int10 url = some (n : Int) → ∃ s, connect windows long url = .ok s ∧ On s n) ∧
    (':' ∉ url → (∀ n : Nat, n < 256 → int10 url ≠ some (n : Int)) → ∃ e, connect windows long url = .error e) := by
  have hpos : 0 < url.length := List.length_pos_iff.2 hne
  refine ⟨fun hc => ?_, fun hc n hn hi => ?_, fun hc hi => ?_⟩
  · refine connect_of_bus windows long hl url 0 (by decide) ?_
    unfold bus
    split
    · rename_i a h
      exact absurd hc (splitOn_one ':' url a h).1
    · rfl
  · refine connect_of_bus windows long hl url n hn ?_
    unfold bus
    rw [splitOn_none ':' _ hc]
    simp [hpos, hi]
  · cases hx : int10 url with
    | none =>
      have hb : bus url = .error .valueError := by
        unfold bus
        rw [splitOn_none ':' _ hc]
        simp [hpos, hx]
      exact ⟨.valueError, by simp only [connect, hb]⟩
    | some k =>
      have hb : bus url = .ok k := by
        unfold bus
        rw [splitOn_none ':' _ hc]
        simp [hpos, hx]
      have ha := inetAton_address k
      rw [if_neg] at ha
      · exact ⟨.osError, by simp only [connect, hb, ha]⟩
      · rintro ⟨h0, h1⟩
        exact hi k.toNat (by omega) (by rw [hx]; congr 1; omega)

/-- Except on Windows the receiving socket is bound to the address of the group, so that drivers of different buses are not bound to the same
address; on Windows it is bound to all addresses. -/
theorem C122_bound (windows : Bool) (long : Nat) (url : Str) (s : Sockets) (h : connect windows long url = .ok s) :
    (windows = false → s.bound = s.target) ∧ (windows = true → s.bound = [0, 0, 0, 0]) := by
  unfold connect at h
  cases hb : bus url with
  | error e => rw [hb] at h; cases h
  | ok n =>
    rw [hb] at h
    simp only at h
    cases ha : inetAton (address n) with
    | none => rw [ha] at h; cases h
    | some a =>
      rw [ha] at h
      cases h
      constructor <;> intro hw <;> simp [hw]

/-- If `connect` raises because of the URL, the driver does not tell: it accepts frames, none of which is ever sent, and nothing is ever
received. -/
theorem C122_dead (windows : Bool) (long : Nat) (url : Str) (e : Fail) (h : connect windows long url = .error e) (steps : List Step)
    (hs : ∀ r, .round r ∈ steps → r.connect ≠ none → ∃ s, connect windows long url = .ok s) :
    sentOf (run steps).trace = [] ∧ deliveredOf (run steps).trace = [] ∧
    ∀ f, putsOf (run (steps ++ [.put f])).trace = putsOf (run steps).trace ++ [f] := by
  have hn : ∀ r, .round r ∈ steps → r.connect = none := by
    intro r hr
    cases hc : r.connect with
    | none => rfl
    | some p =>
      obtain ⟨s, h'⟩ := hs r hr (by rw [hc]; simp)
      rw [h] at h'
      cases h'
  have key : ∀ (steps : List Step) (s : Mcast.State), (∀ r, .round r ∈ steps → r.connect = none) → s.needConnect = true → sentOf s.trace = [] →
      deliveredOf s.trace = [] → sentOf (steps.foldl step s).trace = [] ∧ deliveredOf (steps.foldl step s).trace = [] := by
    intro steps
    induction steps with
    | nil => intro s _ _ h1 h2; exact ⟨h1, h2⟩
    | cons st steps ih =>
      intro s hn hc h1 h2
      have hrest : ∀ r, .round r ∈ steps → r.connect = none := fun r hr => hn r (List.mem_cons_of_mem _ hr)
      cases st with
      | put f => exact ih _ hrest hc (by simpa [step, sentOf] using h1) (by simpa [step, deliveredOf] using h2)
      | round r =>
        have hr := hn r List.mem_cons_self
        by_cases ha : s.alive = true
        · have e : step s (.round r) = { s with alive := false, trace := s.trace ++ [.died] } := by
            simp only [step, if_pos ha, round, if_pos hc, hr]
          rw [List.foldl_cons, e]
          exact ih _ hrest hc (by simpa [sentOf] using h1) (by simpa [deliveredOf] using h2)
        · have e : step s (.round r) = s := by simp only [step, if_neg ha]
          rw [List.foldl_cons, e]
          exact ih _ hrest hc h1 h2
  obtain ⟨k1, k2⟩ := key steps {} hn rfl rfl rfl
  exact ⟨k1, k2, fun f => by simp [run, step, putsOf]⟩

/-! ## The hypotheses can be met -/

example : Means (lit "7") 7 := .inr ⟨by decide, by decide⟩

example : connect false 8 (lit "7") = .ok ⟨[239, 65, 82, 7], [239, 65, 82, 7, 0, 0, 0, 0, 0, 0, 0, 0, 0, 0, 0, 0], [239, 65, 82, 7], 57732⟩ := by
  decide +kernel

example : connect true 4 (lit " +1_7 ") = .ok ⟨[0, 0, 0, 0], [239, 65, 82, 17, 0, 0, 0, 0], [239, 65, 82, 17], 57732⟩ := by decide +kernel

example : connect false 8 (lit "256") = .error .osError ∧ connect false 8 (lit "-1") = .error .osError ∧
    connect false 8 (lit "can0") = .error .valueError := by decide +kernel

end McastUrl
end Dronecan
