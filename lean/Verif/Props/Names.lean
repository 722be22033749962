import Verif.Model.Names
import Verif.Props.Compound

/-!
# C141: names of attributes and keyword arguments
-/

namespace Dronecan
namespace Names
open Parser Text

/-! ## Specification -/

/-- What the parser guarantees (parser.py:667-669, 785-786): names are different from each other and do not begin with an underscore. -/
structure Valid (c : Cls) : Prop where
  fields : ∀ (i j : Nat) (n : Str) (t u : Ty), c.fields[i]? = some (some n, t) → c.fields[j]? = some (some n, u) → i = j
  fieldNames : ∀ (i : Nat) (n : Str) (t : Ty), c.fields[i]? = some (some n, t) → n.head? ≠ some '_'
  constants : ∀ (i : Nat) (n : Str) (t : Ty) (x : Int), c.fields[i]? = some (some n, t) → (n, x) ∉ c.constants

/-- A field that has a name. -/
def IsField (c : Cls) (n : Str) : Prop := ∃ (i : Nat) (t : Ty), c.fields[i]? = some (some n, t)

def IsConstant (c : Cls) (n : Str) : Prop := ∃ x, (n, x) ∈ c.constants

/-- C141 in full: what is given to the constructor becomes part of the message, or the constructor raises. -/
def C141_statement : Prop := ∀ (c : Cls) (kwargs : List (Str × Arg)) (o : Obj), Valid c → construct c kwargs = .ok o → ∀ p ∈ kwargs, IsField c p.1

/-! ## Names -/

theorem lookup_none (l : List (Str × Int)) (n : Str) : l.lookup n = none ↔ ∀ x, (n, x) ∉ l := by
  induction l with
  | nil => simp
  | cons p l ih =>
    obtain ⟨m, y⟩ := p
    by_cases h : n = m
    · subst h
      simp only [List.lookup_cons, beq_self_eq_true, List.mem_cons, Prod.mk.injEq, true_and]
      exact ⟨(fun h => nomatch h), (fun h => absurd (Or.inl rfl) (h y))⟩
    · have hb : (n == m) = false := by simpa using h
      simp only [List.lookup_cons, hb, List.mem_cons, Prod.mk.injEq, h, false_and, false_or]
      exact ih

theorem lookup_some (l : List (Str × Int)) (n : Str) (x : Int) (h : l.lookup n = some x) : (n, x) ∈ l := by
  induction l with
  | nil => simp at h
  | cons p l ih =>
    obtain ⟨m, y⟩ := p
    by_cases hm : n = m
    · subst hm
      simp only [List.lookup_cons, beq_self_eq_true, Option.some.injEq] at h
      subst h
      exact List.mem_cons_self ..
    · have hb : (n == m) = false := by simpa using hm
      simp only [List.lookup_cons, hb] at h
      exact List.mem_cons_of_mem _ (ih h)

theorem keys_get (c : Cls) (i : Nat) : c.keys[i]? = (c.fields[i]?).map fun f => f.1.getD (lit "_void_" ++ decimal i) := by
  simp [Cls.keys, List.getElem?_mapIdx]

/-- Looking up a name that does not begin with an underscore finds the field with that name. -/
theorem position_iff (c : Cls) (hc : Valid c) (n : Str) (hn : n.head? ≠ some '_') (i : Nat) :
    c.position n = some i ↔ ∃ t, c.fields[i]? = some (some n, t) := by
  have named : ∀ j : Nat, c.keys[j]? = some n → ∃ t, c.fields[j]? = some (some n, t) := by
    intro j hj
    rw [keys_get] at hj
    cases hf : c.fields[j]? with
    | none => rw [hf] at hj; cases hj
    | some f =>
      obtain ⟨m, t⟩ := f
      rw [hf] at hj
      cases m with
      | some m =>
        simp only [Option.map_some, Option.getD_some, Option.some.injEq] at hj
        subst hj
        exact ⟨t, rfl⟩
      | none =>
        simp only [Option.map_some, Option.getD_none, Option.some.injEq] at hj
        exact absurd (by rw [← hj]; rfl) hn
  constructor
  · intro h
    unfold Cls.position at h
    rw [List.findIdx?_eq_some_iff_getElem] at h
    obtain ⟨hl, he, -⟩ := h
    have : c.keys[i]? = some n := by
      rw [List.getElem?_eq_getElem hl]
      simpa using he
    exact named i this
  · rintro ⟨t, ht⟩
    unfold Cls.position
    rw [List.findIdx?_eq_some_iff_getElem]
    have hk : c.keys[i]? = some n := by rw [keys_get, ht]; rfl
    obtain ⟨hl, hk⟩ := List.getElem?_eq_some_iff.1 hk
    refine ⟨hl, by simp [hk], fun j hj => ?_⟩
    intro he
    have hjk : c.keys[j]? = some n := by
      rw [List.getElem?_eq_getElem (by omega)]
      simpa using he
    obtain ⟨u, hu⟩ := named j hjk
    have := hc.fields j i n u t hu ht
    omega

theorem position_none (c : Cls) (hc : Valid c) (n : Str) (hn : n.head? ≠ some '_') : c.position n = none ↔ ¬ IsField c n := by
  constructor
  · rintro h ⟨i, t, ht⟩
    rw [(position_iff c hc n hn i).2 ⟨t, ht⟩] at h
    cases h
  · intro h
    cases hp : c.position n with
    | none => rfl
    | some i => exact absurd ⟨i, (position_iff c hc n hn i).1 hp⟩ h

theorem store_lookup (n m : Str) (a : Arg) (l : List (Str × Arg)) : (store n a l).lookup m = if m = n then some a else l.lookup m := by
  induction l with
  | nil =>
    by_cases h : m = n
    · subst h; simp [store, List.lookup_cons]
    · have hb : (m == n) = false := by simpa using h
      simp [store, List.lookup_cons, hb, h]
  | cons p l ih =>
    obtain ⟨k, b⟩ := p
    simp only [store]
    by_cases hk : k = n
    · subst hk
      by_cases h : m = k
      · subst h; simp [List.lookup_cons]
      · have hb : (m == k) = false := by simpa using h
        simp [List.lookup_cons, hb, h]
    · rw [if_neg hk]
      by_cases h : m = k
      · subst h; simp [List.lookup_cons, hk]
      · have hb : (m == k) = false := by simpa using h
        simp only [List.lookup_cons, hb, ih]

/-! ## One attribute -/

/-- The fields of an object. -/
def Shaped (c : Cls) (o : Obj) : Prop := ∃ active vs, o.val = .comp active vs ∧ vs.length = c.fields.length

/-- Constants cannot be assigned. -/
theorem C141_constant (c : Cls) (n : Str) (a : Arg) (o : Obj) (h : IsConstant c n) : setattr c n a o = (.error .attributeError, o) := by
  unfold setattr
  cases hl : c.constants.lookup n with
  | some x => rfl
  | none => obtain ⟨x, hx⟩ := h; exact absurd hx ((lookup_none _ _).1 hl x)

/-- A field is assigned, and nothing else; in a union it must be the active one, if there is one. -/
theorem C141_field (c : Cls) (hc : Valid c) (i : Nat) (n : Str) (t : Ty) (hf : c.fields[i]? = some (some n, t)) (a : Arg) (active : Option Nat)
    (vs : List Val) (w : Val) (hw : vs[i]? = some w) (attrs : List (Str × Arg)) (hu : c.isUnion = true → active = none ∨ active = some i) :
    ∃ active', (c.isUnion = true → active' = some i) ∧ (c.isUnion = false → active' = active) ∧
      setattr c n a ⟨.comp active vs, attrs⟩ = ((assignField t w a).1, ⟨.comp active' (vs.set i (assignField t w a).2), attrs⟩) := by
  have hl : c.constants.lookup n = none := (lookup_none _ _).2 fun x => hc.constants i n t x hf
  have hp : c.position n = some i := (position_iff c hc n (hc.fieldNames i n t hf) i).2 ⟨t, hf⟩
  have hfs : (c.fields.map (·.2))[i]? = some t := by rw [List.getElem?_map, hf]; rfl
  have ht : ∃ active', touch c.isUnion active i = .ok active' ∧ (c.isUnion = true → active' = some i) ∧ (c.isUnion = false → active' = active) := by
    cases hcu : c.isUnion with
    | false => exact ⟨active, rfl, (fun h => nomatch h), fun _ => rfl⟩
    | true =>
      refine ⟨some i, ?_, fun _ => rfl, (fun h => nomatch h)⟩
      rcases hu hcu with rfl | rfl <;> simp [touch]
  obtain ⟨active', h1, h2, h3⟩ := ht
  refine ⟨active', h2, h3, ?_⟩
  unfold setattr
  rw [hl, hp]
  simp only [Cls.ty, execOp, hfs, hw, h1]
  cases hr : assignField t w a with
  | mk r v => cases r <;> rfl

/-- Any other name: the message stays as it is, what was assigned can be read back, and nothing is raised. -/
theorem C141_silent (c : Cls) (hc : Valid c) (n : Str) (hn : n.head? ≠ some '_') (a : Arg) (o : Obj) (h1 : ¬ IsField c n) (h2 : ¬ IsConstant c n) :
    (setattr c n a o).1 = .ok () ∧ (setattr c n a o).2.val = o.val ∧
      (getattr c n (setattr c n a o).2).1 = .ok (.plain a) := by
  have hl : c.constants.lookup n = none := (lookup_none _ _).2 fun x hx => h2 ⟨x, hx⟩
  have hp := (position_none c hc n hn).2 h1
  have hs : setattr c n a o = (.ok (), { o with attrs := store n a o.attrs }) := by
    unfold setattr
    rw [hl, hp]
  rw [hs]
  refine ⟨rfl, rfl, ?_⟩
  simp only [getattr, store_lookup, if_true]

/-- Reading: a name that nothing was assigned to is a constant, a field or an error. -/
theorem C141_read (c : Cls) (hc : Valid c) (n : Str) (hn : n.head? ≠ some '_') (o : Obj) (ho : o.attrs.lookup n = none) :
    (∀ x, c.constants.lookup n = some x → getattr c n o = (.ok (.constant x), o)) ∧
    (¬ IsField c n → ¬ IsConstant c n → getattr c n o = (.error .attributeError, o)) ∧
    (∀ (i : Nat) (t : Ty) (vs : List Val) (active : Option Nat) (w : Val), c.fields[i]? = some (some n, t) → c.isUnion = false → o.val = .comp active vs →
      vs[i]? = some w → getattr c n o = (.ok (.field w), o)) := by
  refine ⟨fun x hx => ?_, fun h1 h2 => ?_, fun i t vs active w hf hcu hv hw => ?_⟩
  · simp only [getattr, ho, hx]
  · have hl : c.constants.lookup n = none := (lookup_none _ _).2 fun x hx => h2 ⟨x, hx⟩
    simp only [getattr, ho, hl, (position_none c hc n hn).2 h1]
  · have hl : c.constants.lookup n = none := (lookup_none _ _).2 fun x => hc.constants i n t x hf
    have hp : c.position n = some i := (position_iff c hc n hn i).2 ⟨t, hf⟩
    have hfs : (c.fields.map (·.2))[i]? = some t := by rw [List.getElem?_map, hf]; rfl
    obtain ⟨v, attrs⟩ := o
    simp only at hv ho
    subst hv
    simp only [getattr, ho, hl, hp, Cls.ty, execOp, hfs, hw, touch, hcu, Bool.false_eq_true, if_false]

/-- Reading a field of a union without active field makes it the active one (so that `hasattr` does); another one is not there then. -/
theorem C141_read_union (c : Cls) (hc : Valid c) (hu : c.isUnion = true) (i : Nat) (n : Str) (t : Ty) (hf : c.fields[i]? = some (some n, t))
    (active : Option Nat) (vs : List Val) (w : Val) (hw : vs[i]? = some w) (attrs : List (Str × Arg)) (ha : attrs.lookup n = none) :
    getattr c n ⟨.comp active vs, attrs⟩ =
      if active = none ∨ active = some i then (.ok (.field w), ⟨.comp (some i) vs, attrs⟩) else (.error .attributeError, ⟨.comp active vs, attrs⟩) := by
  have hl : c.constants.lookup n = none := (lookup_none _ _).2 fun x => hc.constants i n t x hf
  have hp : c.position n = some i := (position_iff c hc n (hc.fieldNames i n t hf) i).2 ⟨t, hf⟩
  have hfs : (c.fields.map (·.2))[i]? = some t := by rw [List.getElem?_map, hf]; rfl
  simp only [getattr, ha, hl, hp, Cls.ty, execOp, hfs, hw, touch, hu, if_true]
  cases active with
  | none => simp
  | some j =>
    by_cases hij : j = i
    · subst hij; simp
    · simp [hij]

/-! ## The constructor -/

/-- The assignments to fields among the keyword arguments. -/
def assignments (c : Cls) : List (Str × Arg) → List (List PathStep × ObjOp)
  | [] => []
  | (n, a) :: rest => match c.position n with
    | some i => ([], .set i a) :: assignments c rest
    | none => assignments c rest

theorem setAll_val (c : Cls) (kwargs : List (Str × Arg)) (o o' : Obj) (h : setAll c kwargs o = .ok o') :
    o'.val = (objRun c.ty (assignments c kwargs) o.val).2 ∧ (∀ p ∈ kwargs, p.1.head? ≠ some '_' ∧ ¬ IsConstant c p.1) ∧
      ∀ r ∈ (objRun c.ty (assignments c kwargs) o.val).1, ∃ g, r = .ok g := by
  induction kwargs generalizing o with
  | nil => cases h; exact ⟨rfl, by simp, by simp [assignments, objRun]⟩
  | cons p kwargs ih =>
    obtain ⟨n, a⟩ := p
    simp only [setAll] at h
    split at h
    · cases h
    · rename_i hn
      unfold setattr at h
      cases hl : c.constants.lookup n with
      | some x => rw [hl] at h; cases h
      | none =>
        rw [hl] at h
        have hnc : ¬ IsConstant c n := fun ⟨x, hx⟩ => (lookup_none _ _).1 hl x hx
        have hall : (∀ p ∈ kwargs, p.1.head? ≠ some '_' ∧ ¬ IsConstant c p.1) →
            ∀ p ∈ (n, a) :: kwargs, p.1.head? ≠ some '_' ∧ ¬ IsConstant c p.1 := by
          intro hk p hp
          rcases List.mem_cons.1 hp with rfl | hp
          · exact ⟨hn, hnc⟩
          · exact hk p hp
        cases hp : c.position n with
        | none =>
          rw [hp] at h
          simp only at h
          have := ih _ h
          simp only [assignments, hp]
          exact ⟨this.1, hall this.2.1, this.2.2⟩
        | some i =>
          rw [hp] at h
          simp only at h
          simp only [assignments, hp, objRun, access]
          cases he : execOp c.ty o.val (.set i a) with
          | mk r w =>
            rw [he] at h
            cases r with
            | error e => cases h
            | ok g =>
              simp only at h
              have := ih _ h
              refine ⟨this.1, hall this.2.1, fun r hr => ?_⟩
              rcases List.mem_cons.1 hr with rfl | hr
              · exact ⟨g, rfl⟩
              · exact this.2.2 r hr

/-- An assignment to an attribute that returns: the field has the value assigned, the others are what they were. -/
theorem setattr_fields (c : Cls) (hc : Valid c) (n : Str) (hn : n.head? ≠ some '_') (a : Arg) (active : Option Nat) (vs : List Val)
    (hlen : vs.length = c.fields.length) (attrs : List (Str × Arg)) (o' : Obj) (h : setattr c n a ⟨.comp active vs, attrs⟩ = (.ok (), o')) :
    ∃ active' vs', o'.val = .comp active' vs' ∧ vs'.length = c.fields.length ∧ (c.isUnion = false → active' = active) ∧
      (c.isUnion = true → (IsField c n → ∃ i t, active' = some i ∧ c.fields[i]? = some (some n, t) ∧ (active = none ∨ active = some i)) ∧
        (¬ IsField c n → active' = active)) ∧
      ∀ (i : Nat) (m : Option Str) (t : Ty) (w : Val), c.fields[i]? = some (m, t) → vs[i]? = some w →
        vs'[i]? = some (if m = some n then (assignField t w a).2 else w) := by
  have hnc : ¬ IsConstant c n := by
    intro hk
    rw [C141_constant c n a _ hk] at h
    cases h
  by_cases hf : IsField c n
  · obtain ⟨i, t, hi⟩ := hf
    obtain ⟨hlt, hge⟩ := List.getElem?_eq_some_iff.1 hi
    have hw : vs[i]? = some vs[i] := List.getElem?_eq_getElem (by omega)
    have hu : c.isUnion = true → active = none ∨ active = some i := by
      intro hcu
      cases active with
      | none => exact Or.inl rfl
      | some j =>
        refine Or.inr ?_
        by_cases hij : i = j
        · rw [hij]
        · exfalso
          have hl : c.constants.lookup n = none := (lookup_none _ _).2 fun x => hc.constants i n t x hi
          have hp : c.position n = some i := (position_iff c hc n hn i).2 ⟨t, hi⟩
          have hfs : (c.fields.map (·.2))[i]? = some t := by rw [List.getElem?_map, hi]; rfl
          have hji : j ≠ i := fun h => hij h.symm
          simp only [setattr, hl, hp, Cls.ty, execOp, hfs, hw, touch, hcu, if_true, if_pos hji] at h
          cases h
    obtain ⟨active', h1, h2, h3⟩ := C141_field c hc i n t hi a active vs vs[i] hw attrs hu
    rw [h3] at h
    injection h with hr ho
    subst ho
    refine ⟨active', _, rfl, by simpa using hlen, h2, fun hcu => ⟨fun _ => ⟨i, t, h1 hcu, hi, hu hcu⟩, fun hnf => absurd ⟨i, t, hi⟩ hnf⟩,
      fun j m u w hj hwj => ?_⟩
    by_cases hij : j = i
    · subst hij
      rw [hi] at hj
      cases hj
      rw [hw] at hwj
      cases hwj
      rw [List.getElem?_set_self (by omega), if_pos rfl]
    · rw [List.getElem?_set_ne (fun h => hij h.symm), hwj, if_neg]
      rintro rfl
      exact hij (hc.fields j i n u t hj hi)
  · obtain ⟨-, h2, -⟩ := C141_silent c hc n hn a ⟨.comp active vs, attrs⟩ hf hnc
    rw [h] at h2
    refine ⟨active, vs, h2, hlen, fun _ => rfl, fun _ => ⟨fun hx => absurd hx hf, fun _ => rfl⟩, fun j m u w hj hwj => ?_⟩
    rw [hwj, if_neg]
    rintro rfl
    exact hf ⟨j, u, hj⟩

theorem setAll_fields (c : Cls) (hc : Valid c) (kwargs : List (Str × Arg)) (hd : (kwargs.map (·.1)).Nodup) (active : Option Nat) (vs : List Val)
    (hlen : vs.length = c.fields.length) (attrs : List (Str × Arg)) (o' : Obj) (h : setAll c kwargs ⟨.comp active vs, attrs⟩ = .ok o') :
    ∃ active' vs', o'.val = .comp active' vs' ∧ vs'.length = c.fields.length ∧ (c.isUnion = false → active' = active) ∧
      ∀ (i : Nat) (m : Option Str) (t : Ty) (w : Val), c.fields[i]? = some (m, t) → vs[i]? = some w →
        vs'[i]? = some (match m.bind (fun m => kwargs.lookup m) with
          | some a => (assignField t w a).2
          | none => w) := by
  induction kwargs generalizing active vs attrs with
  | nil =>
    cases h
    exact ⟨active, vs, rfl, hlen, fun _ => rfl, fun i m t w _ hw => by rw [hw]; cases m <;> rfl⟩
  | cons p kwargs ih =>
    obtain ⟨n, a⟩ := p
    simp only [setAll] at h
    split at h
    · cases h
    · rename_i hn
      cases hs : setattr c n a ⟨.comp active vs, attrs⟩ with
      | mk r o1 =>
        rw [hs] at h
        cases r with
        | error e => cases h
        | ok u =>
          simp only at h
          obtain ⟨active1, vs1, e1, l1, u1, -, f1⟩ := setattr_fields c hc n hn a active vs hlen attrs o1 hs
          obtain ⟨v1, attrs1⟩ := o1
          simp only at e1
          subst e1
          obtain ⟨active2, vs2, e2, l2, u2, f2⟩ := ih (List.nodup_cons.1 hd).2 active1 vs1 l1 attrs1 h
          refine ⟨active2, vs2, e2, l2, fun hcu => (u2 hcu).trans (u1 hcu), fun i m t w hi hw => ?_⟩
          rw [f2 i m t _ hi (f1 i m t w hi hw)]
          cases m with
          | none => rfl
          | some m =>
            simp only [Option.bind_some, List.lookup_cons]
            by_cases hm : m = n
            · subst hm
              have hno : kwargs.lookup m = none := by
                cases hl : kwargs.lookup m with
                | none => rfl
                | some b =>
                  exfalso
                  refine (List.nodup_cons.1 hd).1 ?_
                  have : ∀ l : List (Str × Arg), l.lookup m = some b → m ∈ l.map (·.1) := by
                    intro l
                    induction l with
                    | nil => simp
                    | cons q l ih =>
                      obtain ⟨k, b'⟩ := q
                      by_cases hk : m = k
                      · subst hk; simp
                      · have hb : (m == k) = false := by simpa using hk
                        simp only [List.lookup_cons, hb]
                        exact fun hx => List.mem_cons_of_mem _ (ih hx)
                  exact this kwargs hl
              simp [hno]
            · have hb : (m == n) = false := by simpa using hm
              have hs : ¬ some m = some n := fun h => hm (Option.some.inj h)
              simp only [hb, if_neg hs]

theorem newVals_length (fs : List Ty) : (newVals fs).length = fs.length := by
  induction fs with
  | nil => rfl
  | cons f fs ih => simp [newVals, ih]

theorem newVals_get (fs : List Ty) (i : Nat) : (newVals fs)[i]? = (fs[i]?).map newVal := by
  induction fs generalizing i with
  | nil => simp [newVals]
  | cons f fs ih => cases i <;> simp [newVals, ih]

/-- C141 apart from names that are not declared: if the constructor returns then each field has the value given for its name, as an assignment would store
it, or else its default; in whatever order the arguments are given. (Missing: arguments that are no field are not reported, `C141_counterexample`.) -/
theorem C141_partial (c : Cls) (hc : Valid c) (kwargs : List (Str × Arg)) (hd : (kwargs.map (·.1)).Nodup) (o : Obj) (h : construct c kwargs = .ok o) :
    ∃ active vs, o.val = .comp active vs ∧ vs.length = c.fields.length ∧
      ∀ (i : Nat) (m : Option Str) (t : Ty), c.fields[i]? = some (m, t) →
        vs[i]? = some (match m.bind (fun m => kwargs.lookup m) with
          | some a => (assignField t (newVal t) a).2
          | none => newVal t) := by
  have hlen : (newVals (c.fields.map (·.2))).length = c.fields.length := by rw [newVals_length, List.length_map]
  obtain ⟨active, vs, h1, h2, -, h3⟩ := setAll_fields c hc kwargs hd none _ hlen [] o (by simpa [construct, Cls.ty, newVal] using h)
  refine ⟨active, vs, h1, h2, fun i m t hi => h3 i m t _ hi ?_⟩
  rw [newVals_get, List.getElem?_map, hi]
  rfl

/-- What is refused: names that begin with an underscore, and constants. -/
theorem C141_refused (c : Cls) (kwargs : List (Str × Arg)) (p : Str × Arg) (hp : p ∈ kwargs) (h : p.1.head? = some '_' ∨ IsConstant c p.1) (o : Obj) :
    construct c kwargs ≠ .ok o := by
  intro ho
  have := (setAll_val c kwargs _ o ho).2.1 p hp
  exact h.elim this.1 this.2

/-- A union takes one field only. -/
theorem C141_union (c : Cls) (hc : Valid c) (hu : c.isUnion = true) (kwargs : List (Str × Arg)) (o : Obj) (h : construct c kwargs = .ok o)
    (p q : Str × Arg) (hp : p ∈ kwargs) (hq : q ∈ kwargs) (hpf : IsField c p.1) (hqf : IsField c q.1) : p.1 = q.1 := by
  have key : ∀ (kwargs : List (Str × Arg)) (active : Option Nat) (vs : List Val) (attrs : List (Str × Arg)), vs.length = c.fields.length →
      setAll c kwargs ⟨.comp active vs, attrs⟩ = .ok o →
      ∃ i, (active = none ∨ active = some i) ∧ ∀ p ∈ kwargs, IsField c p.1 → ∃ t, c.fields[i]? = some (some p.1, t) := by
    intro kwargs
    induction kwargs with
    | nil =>
      intro active vs attrs _ _
      cases active with
      | none => exact ⟨0, Or.inl rfl, by simp⟩
      | some j => exact ⟨j, Or.inr rfl, by simp⟩
    | cons p kwargs ih =>
      intro active vs attrs hlen h
      obtain ⟨n, a⟩ := p
      simp only [setAll] at h
      split at h
      · cases h
      · rename_i hn
        cases hs : setattr c n a ⟨.comp active vs, attrs⟩ with
        | mk r o1 =>
          rw [hs] at h
          cases r with
          | error e => cases h
          | ok u =>
            simp only at h
            obtain ⟨active1, vs1, e1, l1, -, u1, -⟩ := setattr_fields c hc n hn a active vs hlen attrs o1 hs
            obtain ⟨v1, attrs1⟩ := o1
            simp only at e1
            subst e1
            obtain ⟨i, hi, hall⟩ := ih active1 vs1 attrs1 l1 h
            by_cases hf : IsField c n
            · obtain ⟨j, t, hj, hfj, hact⟩ := (u1 hu).1 hf
              have hij : i = j := by
                rcases hi with hi | hi
                · rw [hj] at hi; cases hi
                · rw [hj] at hi; cases hi; rfl
              subst hij
              refine ⟨i, hact, fun p hp hpf => ?_⟩
              rcases List.mem_cons.1 hp with rfl | hp
              · exact ⟨t, hfj⟩
              · exact hall p hp hpf
            · rw [(u1 hu).2 hf] at hi
              refine ⟨i, hi, fun p hp hpf => ?_⟩
              rcases List.mem_cons.1 hp with rfl | hp
              · exact absurd hpf hf
              · exact hall p hp hpf
  have hlen : (newVals (c.fields.map (·.2))).length = c.fields.length := by rw [newVals_length, List.length_map]
  obtain ⟨i, -, hall⟩ := key kwargs none _ [] hlen (by simpa [construct, Cls.ty, newVal] using h)
  obtain ⟨t, ht⟩ := hall p hp hpf
  obtain ⟨u, hu⟩ := hall q hq hqf
  rw [ht] at hu
  injection hu with hu
  exact Option.some.inj (congrArg Prod.fst hu)

/-- What the receiver sees: what was constructed. (For integer fields and proper arguments, as in `C06_api_roundtrip`.) -/
theorem C141_sent (c : Cls) (kwargs : List (Str × Arg)) (o : Obj) (h : construct c kwargs = .ok o) (hwf : WfTy c.ty = true) (ht : IntTy c.ty = true)
    (ha : ∀ s ∈ assignments c kwargs, accessTyped c.ty s.1 s.2 = true) :
    ∃ bits, pack c.ty o.val true = .ok bits ∧ ∃ rest, unpack c.ty (bitsFromBytes (bytesFromBits bits)) true = .ok (canon c.ty o.val, rest) := by
  rw [(setAll_val c kwargs _ o h).1]
  exact C06_api_roundtrip c.ty hwf ht _ ha

/-! ## The statement is false -/

/-- `uint32 uptime_sec`, `void3`, `uint8 LIMIT = 5`. -/
def sample : Cls := { fields := [(some (lit "uptime_sec"), .prim ⟨.unsigned, 32, false⟩), (none, .void 3)], constants := [(lit "LIMIT", 5)] }

theorem sample_valid : Valid sample := by
  refine ⟨?_, ?_, ?_⟩
  · intro i j n t u hi hj
    rcases i with _ | _ | i <;> rcases j with _ | _ | j <;> simp_all [sample]
  · intro i n t hi
    rcases i with _ | _ | i
    · simp only [sample, List.getElem?_cons_zero, Option.some.injEq, Prod.mk.injEq] at hi
      rw [← hi.1]
      decide
    · simp [sample] at hi
    · simp [sample] at hi
  · intro i n t x hi
    rcases i with _ | _ | i
    · simp only [sample, List.getElem?_cons_zero, Option.some.injEq, Prod.mk.injEq] at hi
      rw [← hi.1]
      simp only [sample, List.mem_cons, List.not_mem_nil, or_false, Prod.mk.injEq]
      intro hx
      exact absurd hx.1 (by decide)
    · simp [sample] at hi
    · simp [sample] at hi

/-- A misspelled name: the message is sent with the default. -/
theorem C141_counterexample : ¬ C141_statement := by
  intro h
  obtain ⟨i, t, hi⟩ := h sample [(lit "uptime", .int 7)] ⟨newVal sample.ty, [(lit "uptime", .int 7)]⟩ sample_valid (by rfl) _ (List.mem_cons_self ..)
  rcases i with _ | _ | i
  · simp only [sample, List.getElem?_cons_zero, Option.some.injEq, Prod.mk.injEq] at hi
    exact absurd hi.1 (by decide)
  · simp [sample] at hi
  · simp [sample] at hi

/-! ## Examples -/

example : (construct sample [(lit "uptime_sec", .int 7)]).toOption.map (·.val) = some (.comp none [.prim (formatBin 32 7), .void]) := by decide +kernel
example : (setattr sample (lit "LIMIT") (.int 6) { val := newVal sample.ty }).1 = .error .attributeError := by decide +kernel
example : (getattr sample (lit "LIMIT") { val := newVal sample.ty }).1 = .ok (.constant 5) := by decide +kernel
example : (setattr sample (lit "_void_1") (.int 6) { val := newVal sample.ty }).1 = .error .attributeError := by decide +kernel
example : (construct { sample with isUnion := true, fields := [(some (lit "a"), .prim ⟨.unsigned, 8, false⟩), (some (lit "b"), .prim ⟨.unsigned, 8, false⟩)] }
    [(lit "a", .int 1), (lit "b", .int 1)]).toOption.isNone = true := by decide +kernel

end Names
end Dronecan
