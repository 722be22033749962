import Verif.Model.MakeDriver

/-!
# The choice of the driver (C116)
-/

namespace Dronecan
namespace MakeDriver
open Parser Text

/-! ## Specification -/

/-- The kinds of device names. -/
inductive Kind where
  | mavcan (rest : Str)
  | slcan (rest : Str)
  | mcast (rest : Str)
  | filein (rest : Str)
  | fileout (rest : Str)
  | serial
  | other
deriving DecidableEq

/-- The letter `c`, small or capital. -/
def Letter (small capital c : Char) : Prop := c = small ∨ c = capital

/-- Only backslashes and dots. -/
def Skipped (l : Str) : Prop := ∀ c ∈ l, c = '\\' ∨ c = '.'

/-- The name of a Windows serial port as `make_driver` recognizes it: `com` in small or capital letters, with backslashes and dots anywhere
before and between them, and anything behind. -/
def ComName (name : Str) : Prop :=
  ∃ s₁ c s₂ o s₃ m rest, name = s₁ ++ c :: (s₂ ++ o :: (s₃ ++ m :: rest)) ∧ Skipped s₁ ∧ Skipped s₂ ∧ Skipped s₃ ∧
    Letter 'c' 'C' c ∧ Letter 'o' 'O' o ∧ Letter 'm' 'M' m

/-- The name of a serial port. -/
def SerialName (name : Str) : Prop := (∃ rest, name = "/dev/".toList ++ rest) ∨ ComName name

/-- What kind of name it is. -/
inductive Names : Str → Kind → Prop where
  | mavcan (r : Str) : Names ("mavcan:".toList ++ r) (.mavcan r)
  | slcan (r : Str) : Names ("slcan:".toList ++ r) (.slcan r)
  | mcast (r : Str) : Names ("mcast:".toList ++ r) (.mcast r)
  | filein (r : Str) : Names ("filein:".toList ++ r) (.filein r)
  | fileout (r : Str) : Names ("fileout:".toList ++ r) (.fileout r)
  | serial (n : Str) : SerialName n → Names n .serial
  | other (n : Str) : (∀ p ∈ ["mavcan:", "slcan:", "mcast:", "filein:", "fileout:"], ∀ r, n ≠ p.toList ++ r) → ¬ SerialName n → Names n .other

/-- The driver that a name of each kind is to give. -/
def Wanted (m : Machine) (name : Str) (kw : Kwargs) (result : Except Err Driver) : Kind → Prop
  | .mavcan r => (m.mavlink = true → result = .ok (.mavcan r kw)) ∧ (m.mavlink = false → result = .error .driverError)
  | .slcan r => result = .ok (.slcan r kw)
  | .mcast r => result = .ok (.mcast r kw)
  | .filein r => result = .ok (.file r true kw)
  | .fileout r => result = .ok (.file r false kw)
  | .serial =>
    (m.mavlink = false → result = .ok (.slcan name kw)) ∧
    (∀ b, m.mavlink = true → (kw.baudrate = some b ∨ kw.baudrate = none ∧ b = 115200) →
      (m.sendsMavlink name b = .ok true → result = .ok (.mavcan name kw)) ∧
      (m.sendsMavlink name b = .ok false → result = .ok (.slcan name kw)) ∧
      (∀ e, m.sendsMavlink name b = .error e → result = .error e))
  | .other =>
    -- with python-can, a driver for the interface, of the type given, of type pcan if the name begins with PCAN, else of type socketcan
    (m.pythonCan = true → ∃ t b, result = .ok (.pythonCan name t b) ∧ (∀ b', kw.bitrate = some b' → b = b') ∧
      ((∃ r, name = "PCAN".toList ++ r) → t = "pcan".toList) ∧
      ((¬ ∃ r, name = "PCAN".toList ++ r) → (∀ t', kw.bustype = some t' → t = t') ∧ (kw.bustype = none → t = "socketcan".toList))) ∧
    (m.pythonCan = false → m.linux = true → ∃ kw', result = .ok (.socketCan name kw')) ∧
    (m.pythonCan = false → m.linux = false → result = .error .driverError)

/-- C116 in full: every name gives the driver that its kind calls for. -/
def C116_statement : Prop :=
  ∀ (m : Machine) (name : Str) (kw : Kwargs) (k : Kind), Names name k → Wanted m name kw (makeDriver m name kw) k

/-! ## Auxiliary facts -/

theorem isPrefixOf_append (p r : Str) : p.isPrefixOf (p ++ r) = true := by simp

theorem comName_iff (name : Str) : isComPort name = true ↔ ComName name := by
  have first : ∀ (l : Str) (a : Char) (t : Str), l.filter (fun c => c ≠ '\\' && c ≠ '.') = a :: t →
      ∃ s r, l = s ++ a :: r ∧ Skipped s ∧ r.filter (fun c => c ≠ '\\' && c ≠ '.') = t := by
    intro l
    induction l with
    | nil => intro a t h; simp at h
    | cons x l ih =>
      intro a t h
      by_cases hx : (x ≠ '\\' && x ≠ '.') = true
      · rw [List.filter_cons_of_pos (by simpa using hx)] at h
        injection h with h₁ h₂
        exact ⟨[], l, by rw [h₁]; rfl, (fun c hc => nomatch hc), h₂⟩
      · rw [List.filter_cons_of_neg (by simpa using hx)] at h
        obtain ⟨s, r, h₁, h₂, h₃⟩ := ih a t h
        refine ⟨x :: s, r, by rw [h₁]; rfl, ?_, h₃⟩
        intro c hc
        rcases List.mem_cons.1 hc with rfl | hc
        · by_cases h1 : c = '\\'
          · exact .inl h1
          · by_cases h2 : c = '.'
            · exact .inr h2
            · exact absurd (by simp [h1, h2]) hx
        · exact h₂ c hc
  have skip : ∀ (s r : Str), Skipped s → (s ++ r).filter (fun c => c ≠ '\\' && c ≠ '.') = r.filter (fun c => c ≠ '\\' && c ≠ '.') := by
    intro s r h
    rw [List.filter_append]
    have : s.filter (fun c => c ≠ '\\' && c ≠ '.') = [] := by
      rw [List.filter_eq_nil_iff]
      intro c hc
      rcases h c hc with rfl | rfl <;> decide
    rw [this]; rfl
  constructor
  · intro h
    simp only [isComPort] at h
    split at h
    · rename_i a b c t hf
      obtain ⟨s₁, r₁, e₁, k₁, f₁⟩ := first _ _ _ hf
      obtain ⟨s₂, r₂, e₂, k₂, f₂⟩ := first _ _ _ f₁
      obtain ⟨s₃, r₃, e₃, k₃, _⟩ := first _ _ _ f₂
      simp only [Bool.and_eq_true, Bool.or_eq_true, beq_iff_eq] at h
      exact ⟨s₁, a, s₂, b, s₃, c, r₃, by rw [e₁, e₂, e₃], k₁, k₂, k₃, h.1.1, h.1.2, h.2⟩
    · exact nomatch h
  · rintro ⟨s₁, c, s₂, o, s₃, m, rest, rfl, k₁, k₂, k₃, hc, ho, hm⟩
    have hc' : (c ≠ '\\' && c ≠ '.') = true := by rcases hc with rfl | rfl <;> decide
    have ho' : (o ≠ '\\' && o ≠ '.') = true := by rcases ho with rfl | rfl <;> decide
    have hm' : (m ≠ '\\' && m ≠ '.') = true := by rcases hm with rfl | rfl <;> decide
    simp only [isComPort]
    rw [skip _ _ k₁, List.filter_cons_of_pos (by simpa using hc'), skip _ _ k₂, List.filter_cons_of_pos (by simpa using ho'), skip _ _ k₃,
      List.filter_cons_of_pos (by simpa using hm')]
    simp only [Bool.and_eq_true, Bool.or_eq_true, beq_iff_eq]
    exact ⟨⟨hc, ho⟩, hm⟩

/-- The first character of a name of a serial port. -/
theorem serial_head {name : Str} (h : SerialName name) : ∃ a r, name = a :: r ∧ a ∈ ['/', '\\', '.', 'c', 'C'] := by
  rcases h with ⟨r, rfl⟩ | ⟨s₁, c, s₂, o, s₃, m, rest, rfl, k₁, _, _, hc, _, _⟩
  · exact ⟨'/', "dev/".toList ++ r, rfl, by decide⟩
  · cases s₁ with
    | nil => refine ⟨c, _, rfl, ?_⟩; rcases hc with rfl | rfl <;> decide
    | cons a s₁ => refine ⟨a, _, rfl, ?_⟩; rcases k₁ a (List.mem_cons_self ..) with rfl | rfl <;> decide

theorem prefix_iff (p name : Str) : p.isPrefixOf name = true ↔ ∃ r, name = p ++ r := by
  rw [List.isPrefixOf_iff_prefix]
  exact ⟨fun ⟨r, h⟩ => ⟨r, h.symm⟩, fun ⟨r, h⟩ => ⟨r, h.symm⟩⟩

theorem not_prefix {p name : Str} (h : ∀ r, name ≠ p ++ r) : p.isPrefixOf name = false := by
  cases h' : p.isPrefixOf name with
  | false => rfl
  | true => obtain ⟨r, hr⟩ := (prefix_iff _ _).1 h'; exact absurd hr (h r)

/-! ## Theorems -/

/-- Every name has exactly one kind. -/
theorem C116_kinds (name : Str) : ∃ k, Names name k ∧ ∀ k', Names name k' → k' = k := by
  have clash : ∀ p ∈ ["mavcan:", "slcan:", "mcast:", "filein:", "fileout:"], ∀ r : Str, ¬ SerialName (p.toList ++ r) := by
    intro p hp r hs
    obtain ⟨a, t, h, ha⟩ := serial_head hs
    simp only [List.mem_cons, List.not_mem_nil, or_false] at hp
    rcases hp with rfl | rfl | rfl | rfl | rfl <;> (injection h with h₁ _; subst h₁; revert ha; decide)
  by_cases hs : SerialName name
  · refine ⟨.serial, .serial _ hs, fun k' h => ?_⟩
    cases h with
    | mavcan r => exact absurd hs (clash "mavcan:" (by decide) r)
    | slcan r => exact absurd hs (clash "slcan:" (by decide) r)
    | mcast r => exact absurd hs (clash "mcast:" (by decide) r)
    | filein r => exact absurd hs (clash "filein:" (by decide) r)
    | fileout r => exact absurd hs (clash "fileout:" (by decide) r)
    | serial => rfl
    | other _ _ h => exact absurd hs h
  · by_cases hp : ∀ p ∈ ["mavcan:", "slcan:", "mcast:", "filein:", "fileout:"], ∀ r, name ≠ p.toList ++ r
    · refine ⟨.other, .other _ hp hs, fun k' h => ?_⟩
      cases h with
      | mavcan r => exact absurd rfl (hp "mavcan:" (by decide) r)
      | slcan r => exact absurd rfl (hp "slcan:" (by decide) r)
      | mcast r => exact absurd rfl (hp "mcast:" (by decide) r)
      | filein r => exact absurd rfl (hp "filein:" (by decide) r)
      | fileout r => exact absurd rfl (hp "fileout:" (by decide) r)
      | serial _ h => exact absurd h hs
      | other => rfl
    · have : ∃ p ∈ ["mavcan:", "slcan:", "mcast:", "filein:", "fileout:"], ∃ r, name = p.toList ++ r := by
        refine Classical.byContradiction fun hn => hp fun p hm r he => hn ⟨p, hm, r, he⟩
      obtain ⟨p, hm, r, rfl⟩ := this
      have unique : ∀ n k, Names n k → n = p.toList ++ r → ∀ n' k', Names n' k' → n' = p.toList ++ r → k' = k := by
        intro n k h e n' k' h' e'
        have hne : ¬ SerialName n := e ▸ hs
        have hne' : ¬ SerialName n' := e' ▸ hs
        have e'' := e.trans e'.symm
        cases h with
        | serial _ h => exact absurd h hne
        | other _ h => exact absurd e (h p hm r)
        | _ =>
          cases h' with
          | serial _ h => exact absurd h hne'
          | other _ h => exact absurd e' (h p hm r)
          | _ => simp at e'' ⊢ <;> exact e''.symm
      simp only [List.mem_cons, List.not_mem_nil, or_false] at hm
      rcases hm with rfl | rfl | rfl | rfl | rfl
      · exact ⟨_, .mavcan r, fun k' h => unique _ _ (.mavcan r) rfl _ _ h rfl⟩
      · exact ⟨_, .slcan r, fun k' h => unique _ _ (.slcan r) rfl _ _ h rfl⟩
      · exact ⟨_, .mcast r, fun k' h => unique _ _ (.mcast r) rfl _ _ h rfl⟩
      · exact ⟨_, .filein r, fun k' h => unique _ _ (.filein r) rfl _ _ h rfl⟩
      · exact ⟨_, .fileout r, fun k' h => unique _ _ (.fileout r) rfl _ _ h rfl⟩

/-- What is proved of C116: every name gives the driver that its kind calls for, except that the name of a CAN interface needs the keyword
argument `bitrate` where python-can is installed. -/
theorem C116_partial (m : Machine) (name : Str) (kw : Kwargs) (k : Kind) (h : Names name k)
    (hb : k = .other → m.pythonCan = true → kw.bitrate ≠ none) : Wanted m name kw (makeDriver m name kw) k := by
  cases h with
  | mavcan r => exact ⟨fun h => by simp [makeDriver, lit, h], fun h => by simp [makeDriver, lit, h]⟩
  | slcan r => simp [Wanted, makeDriver, lit]
  | mcast r => simp [Wanted, makeDriver, lit]
  | filein r => simp [Wanted, makeDriver, lit]
  | fileout r => simp [Wanted, makeDriver, lit]
  | serial _ hs =>
    obtain ⟨a, t, rfl, ha⟩ := serial_head hs
    have hd : (isComPort (a :: t) || (lit "/dev/").isPrefixOf (a :: t)) = true := by
      rcases hs with ⟨r, hr⟩ | hs
      · rw [hr]; simp [lit]
      · rw [(comName_iff _).2 hs]; rfl
    have e : makeDriver m (a :: t) kw = (match isMavlinkPort m (a :: t) kw with
        | .error e => .error e
        | .ok true => .ok (.mavcan (a :: t) kw)
        | .ok false => .ok (.slcan (a :: t) kw)) := by
      have hn : ∀ c : Char, c ∈ ['P', 'm', 's', 'f'] → ∀ l : Str, (c :: l).isPrefixOf (a :: t) = false := by
        intro c hc l
        have : c ≠ a := by
          rintro rfl
          simp only [List.mem_cons, List.not_mem_nil, or_false] at hc
          rcases hc with rfl | rfl | rfl | rfl <;> revert ha <;> decide
        simp only [List.isPrefixOf, Bool.and_eq_false_iff]
        exact .inl (by simpa using this)
      have h₁ : (lit "PCAN").isPrefixOf (a :: t) = false := hn 'P' (by decide) _
      have h₂ : (lit "mavcan:").isPrefixOf (a :: t) = false := hn 'm' (by decide) _
      have h₃ : (lit "slcan:").isPrefixOf (a :: t) = false := hn 's' (by decide) _
      have h₄ : (lit "mcast:").isPrefixOf (a :: t) = false := hn 'm' (by decide) _
      have h₅ : (lit "filein:").isPrefixOf (a :: t) = false := hn 'f' (by decide) _
      have h₆ : (lit "fileout:").isPrefixOf (a :: t) = false := hn 'f' (by decide) _
      simp only [makeDriver, h₁, h₂, h₃, h₄, h₅, h₆, hd, if_true, Bool.false_eq_true, if_false]
      rfl
    constructor
    · intro hm
      simp [e, isMavlinkPort, hm]
    · intro b hm hbd
      have hg : kw.baudrate.getD 115200 = b := by
        rcases hbd with h | ⟨h, rfl⟩ <;> simp [h]
      refine ⟨fun h => ?_, fun h => ?_, fun x h => ?_⟩ <;> simp [e, isMavlinkPort, hm, hg, h]
  | other _ hp hs =>
    have h₂ := not_prefix (hp "mavcan:" (by decide))
    have h₃ := not_prefix (hp "slcan:" (by decide))
    have h₄ := not_prefix (hp "mcast:" (by decide))
    have h₅ := not_prefix (hp "filein:" (by decide))
    have h₆ := not_prefix (hp "fileout:" (by decide))
    have h₇ : (isComPort name || (lit "/dev/").isPrefixOf name) = false := by
      rw [Bool.or_eq_false_iff]
      refine ⟨?_, not_prefix fun r hr => hs (.inl ⟨r, hr⟩)⟩
      cases h : isComPort name with
      | false => rfl
      | true => exact absurd (.inr ((comName_iff _).1 h)) hs
    have e : makeDriver m name kw =
        (if m.pythonCan then pythonCan name (if (lit "PCAN").isPrefixOf name then { kw with bustype := some (lit "pcan") } else kw)
        else if m.linux then .ok (.socketCan name (if (lit "PCAN").isPrefixOf name then { kw with bustype := some (lit "pcan") } else kw))
        else .error .driverError) := by
      simp only [lit] at h₇ ⊢
      simp only [makeDriver, lit, h₂, h₃, h₄, h₅, h₆, h₇, Bool.false_eq_true, if_false]
    refine ⟨fun hm => ?_, fun h1 h2 => ?_, fun h1 h2 => ?_⟩
    · obtain ⟨b, hbit⟩ := Option.ne_none_iff_exists'.1 (hb rfl hm)
      by_cases hpc : (lit "PCAN").isPrefixOf name = true
      · refine ⟨lit "pcan", b, by simp [e, hm, hpc, pythonCan, hbit], fun b' h => by rw [hbit] at h; exact Option.some.inj h, fun _ => rfl,
          fun hn => absurd ((prefix_iff _ _).1 hpc) hn⟩
      · refine ⟨kw.bustype.getD (lit "socketcan"), b, by simp [e, hm, hpc, pythonCan, hbit],
          fun b' h => by rw [hbit] at h; exact Option.some.inj h, fun hn => absurd ((prefix_iff _ _).2 hn) hpc, fun _ => ⟨fun t' h => by simp [h], fun h => by simp [h, lit]⟩⟩
    · exact ⟨_, by rw [e, h1, h2]; rfl⟩
    · rw [e, h1, h2]; rfl

/-- Where python-can is installed and `bitrate` is missing, the name of a CAN interface gives `KeyError`. -/
theorem C116_no_bitrate (m : Machine) (name : Str) (kw : Kwargs) (h : Names name .other) (hp : m.pythonCan = true) (hb : kw.bitrate = none) :
    makeDriver m name kw = .error .keyError := by
  cases h with
  | other _ hp' hs =>
    have h₂ := not_prefix (hp' "mavcan:" (by decide))
    have h₃ := not_prefix (hp' "slcan:" (by decide))
    have h₄ := not_prefix (hp' "mcast:" (by decide))
    have h₅ := not_prefix (hp' "filein:" (by decide))
    have h₆ := not_prefix (hp' "fileout:" (by decide))
    have h₇ : (isComPort name || (lit "/dev/").isPrefixOf name) = false := by
      rw [Bool.or_eq_false_iff]
      refine ⟨?_, not_prefix fun r hr => hs (.inl ⟨r, hr⟩)⟩
      cases h : isComPort name with
      | false => rfl
      | true => exact absurd (.inr ((comName_iff _).1 h)) hs
    simp only [lit] at h₇
    simp only [makeDriver, lit, h₂, h₃, h₄, h₅, h₆, h₇, Bool.false_eq_true, if_false, hp, if_true]
    by_cases hpc : ("PCAN".toList).isPrefixOf name = true
    · simp only [hpc, if_true, pythonCan, hb]
    · simp only [hpc, Bool.false_eq_true, if_false, pythonCan, hb]

/-- A machine with python-can, without pymavlink. -/
def machine : Machine := { mavlink := false, pythonCan := true, linux := true, sendsMavlink := fun _ _ => .ok false }

theorem can0_other : Names "can0".toList .other := by
  refine .other _ ?_ ?_
  · intro p hp r h
    simp only [List.mem_cons, List.not_mem_nil, or_false] at hp
    rcases hp with rfl | rfl | rfl | rfl | rfl <;> (injection h with h _; revert h; decide)
  · rintro (⟨r, h⟩ | h)
    · injection h with h _; revert h; decide
    · exact absurd ((comName_iff _).2 h) (by decide)

/-- `make_driver("can0")`, which the documentation of the function gives as an example, raises `KeyError` where python-can is installed. -/
theorem C116_counterexample : ¬ C116_statement := by
  intro h
  obtain ⟨t, b, he, _⟩ := (h machine "can0".toList {} .other can0_other).1 rfl
  rw [C116_no_bitrate machine _ {} can0_other rfl rfl] at he
  exact nomatch he

/-! ## The hypotheses are met -/

example : Names "slcan:/dev/ttyACM0".toList (.slcan "/dev/ttyACM0".toList) := .slcan _

example : Names "\\\\.\\COM10".toList .serial := .serial _ (.inr ((comName_iff _).1 (by decide)))

example : makeDriver machine "\\\\.\\COM10".toList {} = .ok (.slcan "\\\\.\\COM10".toList {}) := by decide +kernel

example : makeDriver machine "can0".toList { bitrate := some 1000000 } = .ok (.pythonCan "can0".toList "socketcan".toList 1000000) := by
  decide +kernel

example : makeDriver machine "PCAN_USBBUS1".toList { bitrate := some 500000, bustype := some "socketcan".toList } =
    .ok (.pythonCan "PCAN_USBBUS1".toList "pcan".toList 500000) := by decide +kernel

example : makeDriver { machine with pythonCan := false } "vcan0".toList {} = .ok (.socketCan "vcan0".toList {}) := by decide +kernel

/-- A CAN interface the name of which begins with `com` is taken for a serial port. -/
example : makeDriver machine "compute0".toList { bitrate := some 1000000 } = .ok (.slcan "compute0".toList { bitrate := some 1000000 }) := by
  decide +kernel

end MakeDriver
end Dronecan
