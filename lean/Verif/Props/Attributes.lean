import Verif.Model.Attributes
import Verif.Proofs.Dict

/-!
# Data types as attributes of the module (C113)
-/

namespace Dronecan
namespace Attributes

/-! ## Specification -/

/-- Namespaces begin with a lower-case letter, types do not (parser.py:770-782). -/
def isNsName (s : String) : Bool :=
  match s.toList with
  | c :: _ => 'a' ≤ c && c ≤ 'z'
  | [] => false

/-- The names that the parser accepts. -/
structure Valid (t : DType) : Prop where
  namespaces : ∀ a ∈ t.path, isNsName a = true
  some_namespace : t.path ≠ []
  name : isNsName t.name = false

/-- The full name, as a list. -/
def DType.full (t : DType) : List String := t.path ++ [t.name]

/-- Where a type with this full name is expected: `dronecan.uavcan...`, and so on for the root namespaces of the package;
`dronecan.thirdparty...` otherwise. -/
def place : List String → List String
  | [] => []
  | r :: rest => if r ∈ ["dronecan", "uavcan", "ardupilot", "com", "cuav"] then r :: rest else "thirdparty" :: r :: rest

/-- The last of the types with this full name. -/
def lastOf (ts : List DType) (full : List String) : Option DType := ts.reverse.find? (fun t => t.full == full)

/-- C113: after any number of calls, each type loaded by any of them is found under its full name (the last one, if there are several). -/
def C113_statement : Prop := ∀ (calls : List (List DType)), (∀ ts ∈ calls, ∀ t ∈ ts, Valid t) →
  ∃ m, loads calls [] = .ok m ∧ ∀ ts ∈ calls, ∀ t ∈ ts, typeOf m (place t.full) = lastOf calls.flatten t.full

/-! ## Trees of namespaces -/

def isNs : Obj → Bool
  | .ns _ _ => true
  | .type _ => false

def typeAt (o : Obj) (path : List String) : Option DType :=
  match lookup path o with
  | some (.type t) => some t
  | _ => none

/-- Namespaces have the names of namespaces, types have not, and the sets of names are right. -/
structure Good (o : Obj) : Prop where
  root : isNs o = true
  named : ∀ q x o', lookup (q ++ [x]) o = some o' → isNs o' = isNsName x
  names : ∀ q names attrs, lookup q o = some (.ns names attrs) → ∀ a, a ∈ names ↔ isNsName a = true ∧ (Dict.get? attrs a).isSome

theorem good_empty : Good empty := by
  refine ⟨rfl, ?_, ?_⟩
  · intro q x o' h
    cases q <;> simp [empty, lookup, Dict.get?] at h
  · intro q names attrs h a
    cases q with
    | nil =>
      simp only [empty, lookup, Option.some.injEq, Obj.ns.injEq] at h
      obtain ⟨rfl, rfl⟩ := h
      simp [Dict.get?]
    | cons b q => simp [empty, lookup, Dict.get?] at h

theorem lookup_cons {names : List String} {attrs : List (String × Obj)} {a : String} {path : List String} :
    lookup (a :: path) (.ns names attrs) = (Dict.get? attrs a).bind (lookup path) := by
  simp only [lookup]
  cases Dict.get? attrs a <;> rfl

theorem good_child {names : List String} {attrs : List (String × Obj)} (h : Good (.ns names attrs)) {a : String} {o : Obj}
    (ha : Dict.get? attrs a = some o) (hn : isNsName a = true) : Good o := by
  have hl : ∀ q, lookup (a :: q) (.ns names attrs) = lookup q o := by
    intro q
    rw [lookup_cons, ha]
    rfl
  refine ⟨?_, ?_, ?_⟩
  · have := h.named [] a o (hl [])
    rw [this, hn]
  · intro q x o' hq
    exact h.named (a :: q) x o' ((hl _).trans hq)
  · intro q nm at' hq
    exact h.names (a :: q) nm at' ((hl _).trans hq)

/-- Replacing an attribute by a good object of the right sort. -/
theorem good_set {names : List String} {attrs : List (String × Obj)} (h : Good (.ns names attrs)) (a : String) (o : Obj)
    (hs : isNs o = isNsName a) (ho : isNs o = true → Good o) (names' : List String)
    (hn : ∀ b, b ∈ names' ↔ isNsName b = true ∧ (Dict.get? (Dict.set attrs a o) b).isSome) :
    Good (.ns names' (Dict.set attrs a o)) := by
  have hl : ∀ b q, lookup (b :: q) (.ns names' (Dict.set attrs a o)) = if a = b then lookup q o else lookup (b :: q) (.ns names attrs) := by
    intro b q
    rw [lookup_cons, lookup_cons, Dict.get?_set]
    split <;> rfl
  refine ⟨rfl, ?_, ?_⟩
  · intro q x o' hq
    cases q with
    | nil =>
      rw [List.nil_append, hl] at hq
      split at hq
      · next e =>
        subst e
        cases hq
        exact hs
      · exact h.named [] x o' hq
    | cons b q =>
      rw [List.cons_append, hl] at hq
      split at hq
      · by_cases hns : isNs o = true
        · exact (ho hns).named q x o' hq
        · cases o with
          | ns _ _ => exact absurd rfl hns
          | type t => cases q <;> simp [lookup] at hq
      · exact h.named (b :: q) x o' hq
  · intro q nm at' hq
    cases q with
    | nil =>
      simp only [lookup, Option.some.injEq, Obj.ns.injEq] at hq
      obtain ⟨rfl, rfl⟩ := hq
      exact hn
    | cons b q =>
      rw [hl] at hq
      split at hq
      · by_cases hns : isNs o = true
        · exact (ho hns).names q nm at' hq
        · cases o with
          | ns _ _ => exact absurd rfl hns
          | type t => cases q <;> simp [lookup] at hq
      · exact h.names (b :: q) nm at' hq

theorem typeAt_set (names names' : List String) (attrs : List (String × Obj)) (a : String) (o : Obj) (b : String) (q : List String) :
    typeAt (.ns names' (Dict.set attrs a o)) (b :: q) = if a = b then typeAt o q else typeAt (.ns names attrs) (b :: q) := by
  simp only [typeAt, lookup_cons, Dict.get?_set]
  by_cases e : a = b
  · rw [if_pos e, if_pos e]; rfl
  · rw [if_neg e, if_neg e]

theorem typeAt_nil (names : List String) (attrs : List (String × Obj)) : typeAt (.ns names attrs) [] = none := rfl

/-- One assignment: it succeeds, and changes nothing else. -/
theorem assign_spec (t : DType) (ht : isNsName t.name = false) : ∀ (path : List String) (o : Obj), (∀ a ∈ path, isNsName a = true) → Good o →
    ∃ o', assign t path o = .ok o' ∧ Good o' ∧ ∀ q, typeAt o' q = if q = path ++ [t.name] then some t else typeAt o q := by
  intro path
  induction path with
  | nil =>
    intro o _ hg
    cases o with
    | type t => exact absurd hg.root (by simp [isNs])
    | ns names attrs =>
      refine ⟨_, rfl, good_set hg t.name (.type t) (by simp [isNs, ht]) (by simp [isNs]) names ?_, ?_⟩
      · intro b
        rw [hg.names [] names attrs rfl, Dict.get?_set]
        by_cases e : t.name = b
        · subst e; simp [ht]
        · simp [e]
      · intro q
        cases q with
        | nil => simp [typeAt_nil]
        | cons b q =>
          rw [typeAt_set names]
          by_cases e : t.name = b
          · subst e
            simp only [if_true, List.nil_append, List.cons.injEq, true_and]
            cases q with
            | nil => simp [typeAt, lookup]
            | cons c q =>
              have : typeAt (.ns names attrs) (t.name :: c :: q) = none := by
                simp only [typeAt, lookup_cons]
                cases hx : Dict.get? attrs t.name with
                | none => rfl
                | some o' =>
                  have := hg.named [] t.name o' (by simp [lookup, hx])
                  rw [ht] at this
                  cases o' with
                  | ns _ _ => simp [isNs] at this
                  | type t' => simp [lookup]
              rw [this]
              simp [typeAt, lookup]
          · have e' : ¬ b :: q = [] ++ [t.name] := by
              intro h
              simp at h
              exact e h.1.symm
            rw [if_neg e, if_neg e']
  | cons a path ih =>
    intro o hp hg
    have ha : isNsName a = true := hp a (by simp)
    cases o with
    | type t => exact absurd hg.root (by simp [isNs])
    | ns names attrs =>
      have tail : ∀ (o o' : Obj) (names' : List String), (∀ q, typeAt o q = typeAt (.ns names attrs) (a :: q)) →
          (∀ q, typeAt o' q = if q = path ++ [t.name] then some t else typeAt o q) →
          ∀ q, typeAt (.ns names' (Dict.set attrs a o')) q = if q = a :: path ++ [t.name] then some t else typeAt (.ns names attrs) q := by
        intro o o' names' h1 h2 q
        cases q with
        | nil => simp [typeAt_nil]
        | cons b q =>
          rw [typeAt_set names]
          by_cases e : a = b
          · subst e
            rw [if_pos rfl, h2, h1]
            simp
          · have e' : ¬ b :: q = a :: path ++ [t.name] := by
              intro h
              simp at h
              exact e h.1.symm
            rw [if_neg e, if_neg e']
      cases hx : Dict.get? attrs a with
      | none =>
        obtain ⟨o', e1, g1, h1⟩ := ih empty (fun b hb => hp b (by simp [hb])) good_empty
        refine ⟨.ns (names ++ [a]) (Dict.set attrs a o'), by simp only [assign, hx, e1], good_set hg a o' (by rw [g1.root, ha]) (fun _ => g1) _ ?_, ?_⟩
        · intro b
          rw [List.mem_append, hg.names [] names attrs rfl, Dict.get?_set]
          by_cases e : a = b
          · subst e; simp [ha]
          · simp [e, Ne.symm e]
        · refine tail empty o' _ ?_ h1
          intro q
          have : typeAt (.ns names attrs) (a :: q) = none := by simp [typeAt, lookup, hx]
          rw [this]
          cases q <;> simp [typeAt, empty, lookup, Dict.get?]
      | some o =>
        obtain ⟨o', e1, g1, h1⟩ := ih o (fun b hb => hp b (by simp [hb])) (good_child hg hx ha)
        refine ⟨.ns names (Dict.set attrs a o'), by simp only [assign, hx, e1], good_set hg a o' (by rw [g1.root, ha]) (fun _ => g1) _ ?_, ?_⟩
        · intro b
          rw [hg.names [] names attrs rfl, Dict.get?_set]
          by_cases e : a = b
          · subst e; simp [hx]
          · simp [e]
        · refine tail o o' _ ?_ h1
          intro q
          simp [typeAt, lookup, hx]

theorem lastOf_cons (t : DType) (ts : List DType) (q : List String) :
    lastOf (t :: ts) q = (lastOf ts q).or (if t.full = q then some t else none) := by
  unfold lastOf
  rw [List.reverse_cons, List.find?_append]
  by_cases h : t.full = q <;> simp [h]

/-- All the assignments. -/
theorem assignAll_spec (ts : List DType) : ∀ (o : Obj), (∀ t ∈ ts, Valid t) → Good o →
    ∃ o', assignAll ts o = .ok o' ∧ Good o' ∧ ∀ q, typeAt o' q = (lastOf ts q).or (typeAt o q) := by
  induction ts with
  | nil =>
    intro o _ hg
    exact ⟨o, rfl, hg, fun q => by simp [lastOf]⟩
  | cons t ts ih =>
    intro o hv hg
    have ht := hv t (by simp)
    obtain ⟨o1, e1, g1, h1⟩ := assign_spec t ht.name t.path o ht.namespaces hg
    obtain ⟨o2, e2, g2, h2⟩ := ih o1 (fun u hu => hv u (by simp [hu])) g1
    refine ⟨o2, by simp only [assignAll, e1, e2], g2, ?_⟩
    intro q
    rw [h2, h1, lastOf_cons]
    by_cases e : q = t.full
    · subst e
      simp [DType.full]
    · have e' : ¬ q = t.path ++ [t.name] := e
      have e'' : ¬ t.full = q := fun h => e h.symm
      simp [e', e'']

/-! ## Publication -/

theorem child_spec (n : String) (hn : isNsName n = true) (o : Obj) (hg : Good o) : ∃ root c, child n o = .ok (root, c) ∧ Good root ∧
    Good c ∧ (∀ q, typeAt root q = typeAt o q) ∧ (∀ q, typeAt c q = typeAt o (n :: q)) ∧ (lookup [n] root = some c) ∧
    (∀ b, b ≠ n → lookup [b] root = lookup [b] o) := by
  cases o with
  | type t => exact absurd hg.root (by simp [isNs])
  | ns names attrs =>
    cases hx : Dict.get? attrs n with
    | none =>
      have hnone : ∀ q, typeAt (.ns names attrs) (n :: q) = none := fun q => by simp [typeAt, lookup, hx]
      have hemp : ∀ q, typeAt empty q = none := fun q => by cases q <;> simp [typeAt, empty, lookup, Dict.get?]
      refine ⟨.ns (names ++ [n]) (Dict.set attrs n empty), empty, by simp only [child, hx], ?_, good_empty, ?_, ?_, ?_, ?_⟩
      · refine good_set hg n empty (by rw [hn]; rfl) (fun _ => good_empty) _ ?_
        intro b
        rw [List.mem_append, hg.names [] names attrs rfl, Dict.get?_set]
        by_cases e : n = b
        · subst e; simp [hn]
        · simp [e, Ne.symm e]
      · intro q
        cases q with
        | nil => rfl
        | cons b q =>
          rw [typeAt_set names]
          split
          · next e => subst e; rw [hnone, hemp]
          · rfl
      · intro q; rw [hnone, hemp]
      · rw [lookup_cons, Dict.get?_set_self]; rfl
      · intro b hb
        rw [lookup_cons, lookup_cons, Dict.get?_set_ne _ _ (Ne.symm hb)]
    | some c =>
      refine ⟨.ns names attrs, c, by simp only [child, hx], hg, good_child hg hx hn, fun _ => rfl, ?_, ?_, fun _ _ => rfl⟩
      · intro q; simp [typeAt, lookup, hx]
      · rw [lookup_cons, hx]; rfl

theorem copy_fold (keep : String → Bool) (attrs : List (String × Obj)) (names : List String) (d : List (String × Obj)) (b : String) :
    Dict.get? (names.foldl (fun d a =>
      match keep a, Dict.get? attrs a with
      | true, some o => Dict.set d a o
      | _, _ => d) d) b = if b ∈ names ∧ keep b = true ∧ (Dict.get? attrs b).isSome then Dict.get? attrs b else Dict.get? d b := by
  induction names generalizing d with
  | nil => simp
  | cons a names ih =>
    rw [List.foldl_cons, ih]
    by_cases hb : b ∈ names ∧ keep b = true ∧ (Dict.get? attrs b).isSome
    · rw [if_pos hb, if_pos ⟨by simp [hb.1], hb.2⟩]
    · rw [if_neg hb]
      cases hk : keep a with
      | false =>
        have : ¬ (b ∈ a :: names ∧ keep b = true ∧ (Dict.get? attrs b).isSome) := by
          intro ⟨h1, h2⟩
          rcases List.mem_cons.1 h1 with rfl | h1
          · rw [hk] at h2; simp at h2
          · exact hb ⟨h1, h2⟩
        rw [if_neg this]
      | true =>
        cases hx : Dict.get? attrs a with
        | none =>
          have : ¬ (b ∈ a :: names ∧ keep b = true ∧ (Dict.get? attrs b).isSome) := by
            intro ⟨h1, h2⟩
            rcases List.mem_cons.1 h1 with rfl | h1
            · rw [hx] at h2; simp at h2
            · exact hb ⟨h1, h2⟩
          rw [if_neg this]
        | some o =>
          show Dict.get? (Dict.set d a o) b = _
          rw [Dict.get?_set]
          by_cases e : a = b
          · subst e
            rw [if_pos rfl, if_pos ⟨by simp, hk, by simp [hx]⟩, hx]
          · have : ¬ (b ∈ a :: names ∧ keep b = true ∧ (Dict.get? attrs b).isSome) := by
              intro ⟨h1, h2⟩
              rcases List.mem_cons.1 h1 with rfl | h1
              · exact e rfl
              · exact hb ⟨h1, h2⟩
            rw [if_neg e, if_neg this]

/-- What a copy shows: what lies at least one namespace deeper. -/
theorem copy_spec (keep : String → Bool) (o : Obj) (hg : Good o) : ∃ c, copy keep o = .ok c ∧ typeAt c [] = none ∧
    ∀ a q, typeAt c (a :: q) = if keep a = true ∧ q ≠ [] then typeAt o (a :: q) else none := by
  cases o with
  | type t => exact absurd hg.root (by simp [isNs])
  | ns names attrs =>
    refine ⟨_, rfl, rfl, ?_⟩
    intro a q
    simp only [typeAt, lookup_cons]
    have hf := copy_fold keep attrs names [] a
    refine Eq.trans (congrArg (fun x : Option Obj => match x.bind (lookup q) with
      | some (.type t) => some t
      | _ => none) hf) ?_
    have hnm := hg.names [] names attrs rfl a
    cases hx : Dict.get? attrs a with
    | none => simp [Dict.get?]
    | some o' =>
      have hnamed := hg.named [] a o' (by simp [lookup, hx])
      by_cases hk : keep a = true
      · by_cases ha : isNsName a = true
        · rw [if_pos ⟨hnm.2 ⟨ha, by simp [hx]⟩, hk, by simp⟩]
          rw [ha] at hnamed
          cases q with
          | nil =>
            cases o' with
            | type t => simp [isNs] at hnamed
            | ns _ _ => simp [lookup]
          | cons b q => simp [hk]
        · have hmem : a ∉ names := fun h => ha (hnm.1 h).1
          rw [if_neg (fun h => hmem h.1)]
          cases o' with
          | ns _ _ => rw [← hnamed] at ha; simp [isNs] at ha
          | type t => cases q <;> simp [Dict.get?, lookup]
      · simp [hk, Dict.get?]

theorem publish_spec (ns : List String) : ∀ (root : Obj) (m : Mod), (∀ n ∈ ns, isNsName n = true) → Good root →
    ∃ root' m', publish ns root m = .ok (root', m') ∧ Good root' ∧ (∀ q, typeAt root' q = typeAt root q) ∧
      (∀ n q, n ∈ ns → typeOf m' (n :: q) = match q with
        | _ :: _ :: _ => typeAt root (n :: q)
        | _ => none) ∧
      (∀ n q, n ∉ ns → typeOf m' (n :: q) = typeOf m (n :: q)) := by
  have typeOf_set : ∀ (m : Mod) (a : String) (c : Obj) (b : String) (q : List String),
      typeOf (Dict.set m a c) (b :: q) = if a = b then typeAt c q else typeOf m (b :: q) := by
    intro m a c b q
    exact typeAt_set [] [] m a c b q
  induction ns with
  | nil =>
    intro root m _ hg
    exact ⟨root, m, rfl, hg, fun _ => rfl, by simp, fun _ _ _ => rfl⟩
  | cons n ns ih =>
    intro root m hn hg
    obtain ⟨r1, c, e1, g1, gc, h1, h2, -, -⟩ := child_spec n (hn n (by simp)) root hg
    obtain ⟨d, e2, hd0, hd⟩ := copy_spec (fun _ => true) c gc
    obtain ⟨r2, m2, e3, g3, h3, h4, h5⟩ := ih r1 (Dict.set m n d) (fun a ha => hn a (by simp [ha])) g1
    refine ⟨r2, m2, by simp only [publish, e1, e2, e3], g3, fun q => (h3 q).trans (h1 q), ?_, ?_⟩
    · intro a q ha
      by_cases hmem : a ∈ ns
      · rw [h4 a q hmem]
        cases q with
        | nil => rfl
        | cons b q =>
          cases q with
          | nil => rfl
          | cons c q => exact h1 _
      · have : a = n := by
          rcases List.mem_cons.1 ha with h | h
          · exact h
          · exact absurd h hmem
        subst this
        rw [h5 a q hmem, typeOf_set, if_pos rfl]
        cases q with
        | nil => exact hd0
        | cons b q =>
          rw [hd, h2]
          cases q <;> simp
    · intro a q ha
      have h6 : a ∉ ns := fun h => ha (by simp [h])
      have h7 : ¬ n = a := fun h => ha (by simp [h])
      rw [h5 a q h6, typeOf_set, if_neg h7]

/-- What is found after one call, under every chain of names. -/
theorem load_spec (ts : List DType) (m : Mod) (hv : ∀ t ∈ ts, Valid t) : ∃ m', load ts m = .ok m' ∧
    (∀ n q, n ∈ ["dronecan", "uavcan", "ardupilot", "com", "cuav"] → typeOf m' (n :: q) = match q with
      | _ :: _ :: _ => lastOf ts (n :: q)
      | _ => none) ∧
    (∀ q, typeOf m' ("thirdparty" :: q) = match q with
      | a :: _ :: _ => if a = "uavcan" then none else lastOf ts q
      | _ => none) ∧
    (∀ n q, n ∉ ["dronecan", "uavcan", "ardupilot", "com", "cuav", "thirdparty"] → typeOf m' (n :: q) = typeOf m (n :: q)) := by
  obtain ⟨root, e1, g1, h1⟩ := assignAll_spec ts empty hv good_empty
  have hemp : ∀ q, typeAt empty q = none := fun q => by cases q <;> simp [typeAt, empty, lookup, Dict.get?]
  have h1' : ∀ q, typeAt root q = lastOf ts q := by
    intro q
    rw [h1, hemp]
    simp
  obtain ⟨r2, m2, e2, g2, h2, h3, h4⟩ := publish_spec toplevel root m (by decide +kernel) g1
  obtain ⟨c, e3, hc0, hc⟩ := copy_spec (fun a => a != "uavcan") r2 g2
  have typeOf_set : ∀ (b : String) (q : List String),
      typeOf (Dict.set m2 "thirdparty" c) (b :: q) = if "thirdparty" = b then typeAt c q else typeOf m2 (b :: q) := by
    intro b q
    exact typeAt_set [] [] m2 "thirdparty" c b q
  refine ⟨Dict.set m2 "thirdparty" c, by simp only [load, e1, e2, e3], ?_, ?_, ?_⟩
  · intro n q hn
    have : ¬ "thirdparty" = n := by
      intro h
      subst h
      exact absurd hn (by decide)
    rw [typeOf_set, if_neg this, h3 n q hn]
    cases q with
    | nil => rfl
    | cons a q =>
      cases q with
      | nil => rfl
      | cons b q => exact h1' _
  · intro q
    rw [typeOf_set, if_pos rfl]
    cases q with
    | nil => exact hc0
    | cons a q =>
      rw [hc, h2, h1']
      cases q with
      | nil => simp
      | cons b q => by_cases ha : a = "uavcan" <;> simp [ha]
  · intro n q hn
    have : ¬ "thirdparty" = n := fun h => hn (by simp [← h])
    rw [typeOf_set, if_neg this, h4 n q (fun h => hn (by simp only [toplevel] at h; simp at h ⊢; grind))]

/-! ## C113 -/

theorem loads_ok (calls : List (List DType)) : ∀ m, (∀ ts ∈ calls, ∀ t ∈ ts, Valid t) → ∃ m', loads calls m = .ok m' := by
  induction calls with
  | nil => intro m _; exact ⟨m, rfl⟩
  | cons ts calls ih =>
    intro m hv
    obtain ⟨m1, e1, -⟩ := load_spec ts m (hv ts (by simp))
    obtain ⟨m2, e2⟩ := ih m1 (fun us hu => hv us (by simp [hu]))
    exact ⟨m2, by simp only [loads, e1, e2]⟩

theorem loads_append (calls : List (List DType)) (ts : List DType) (m : Mod) : loads (calls ++ [ts]) m =
    match loads calls m with
    | .error e => .error e
    | .ok m => load ts m := by
  induction calls generalizing m with
  | nil =>
    simp only [List.nil_append, loads]
    cases load ts m <;> rfl
  | cons us calls ih =>
    simp only [List.cons_append, loads]
    cases load us m with
    | error e => rfl
    | ok m1 => exact ih m1

/-- The calls do not raise, and each type loaded by the last one is found under its full name, unless it belongs to one of the root namespaces of the
package directly. -/
theorem C113_partial (calls : List (List DType)) (ts : List DType) (hv : ∀ us ∈ calls ++ [ts], ∀ t ∈ us, Valid t) :
    ∃ m, loads (calls ++ [ts]) [] = .ok m ∧ ∀ t ∈ ts, (∀ r, t.path = [r] → r ∉ ["dronecan", "uavcan", "ardupilot", "com", "cuav"]) →
      typeOf m (place t.full) = lastOf ts t.full ∧ (lastOf ts t.full).isSome := by
  obtain ⟨m1, e1⟩ := loads_ok calls [] (fun us hu => hv us (by simp [hu]))
  obtain ⟨m2, e2, h1, h2, -⟩ := load_spec ts m1 (hv ts (by simp))
  refine ⟨m2, by rw [loads_append, e1]; exact e2, ?_⟩
  intro t ht hr
  refine ⟨?_, ?_⟩
  · have hp := (hv ts (by simp) t ht).some_namespace
    cases hpath : t.path with
    | nil => exact absurd hpath hp
    | cons r rest =>
      have hfull : t.full = r :: (rest ++ [t.name]) := by simp [DType.full, hpath]
      rw [hfull]
      simp only [place]
      split
      · next hm =>
        rw [h1 r _ hm]
        cases rest with
        | nil => exact absurd hm (hr r hpath)
        | cons s rest =>
          cases rest <;> rfl
      · next hm =>
        rw [h2]
        have : r ≠ "uavcan" := by
          intro h
          subst h
          exact hm (by decide)
        cases rest with
        | nil => simp [this]
        | cons s rest => simp [this]
  · cases hl : lastOf ts t.full with
    | some u => rfl
    | none =>
      unfold lastOf at hl
      rw [List.find?_eq_none] at hl
      exact absurd (show (t.full == t.full) = true by simp) (hl t (by simpa using ht))

/-- Nothing else is found: what stands under a chain of names after a call is the last type loaded by that call with the full name. -/
theorem C113_nothing_else (calls : List (List DType)) (ts : List DType) (hv : ∀ us ∈ calls ++ [ts], ∀ t ∈ us, Valid t) (m : Mod)
    (h : loads (calls ++ [ts]) [] = .ok m) (q : List String) (t : DType) (ht : typeOf m q = some t) :
    (q = t.full ∨ q = "thirdparty" :: t.full) ∧ lastOf ts t.full = some t := by
  have full_of : ∀ p, lastOf ts p = some t → p = t.full ∧ lastOf ts t.full = some t := by
    intro p hp
    have h1 := List.find?_some hp
    have : t.full = p := by simpa using h1
    exact ⟨this.symm, by rw [this]; exact hp⟩
  have others : ∀ (calls : List (List DType)) (m m' : Mod), (∀ us ∈ calls, ∀ t ∈ us, Valid t) → loads calls m = .ok m' →
      ∀ n q, n ∉ ["dronecan", "uavcan", "ardupilot", "com", "cuav", "thirdparty"] → typeOf m' (n :: q) = typeOf m (n :: q) := by
    intro calls
    induction calls with
    | nil => intro m m' _ e n q _; cases e; rfl
    | cons us calls ih =>
      intro m m' hv e n q hn
      obtain ⟨m1, e1, -, -, h3⟩ := load_spec us m (hv us (by simp))
      simp only [loads, e1] at e
      rw [ih m1 m' (fun vs hvs => hv vs (by simp [hvs])) e n q hn, h3 n q hn]
  have hothers := others (calls ++ [ts]) [] m hv h
  obtain ⟨m1, e1⟩ := loads_ok calls [] (fun us hu => hv us (by simp [hu]))
  obtain ⟨m2, e2, h1, h2, -⟩ := load_spec ts m1 (hv ts (by simp))
  rw [loads_append, e1] at h
  have h : load ts m1 = .ok m := h
  rw [e2] at h
  cases h
  cases q with
  | nil => simp [typeOf, lookup] at ht
  | cons n q =>
    by_cases hn : n ∈ ["dronecan", "uavcan", "ardupilot", "com", "cuav"]
    · rw [h1 n q hn] at ht
      cases q with
      | nil => cases ht
      | cons a q =>
        cases q with
        | nil => cases ht
        | cons b q =>
          have := full_of _ ht
          exact ⟨.inl this.1, this.2⟩
    · by_cases h3 : n = "thirdparty"
      · subst h3
        rw [h2 q] at ht
        cases q with
        | nil => cases ht
        | cons a q =>
          cases q with
          | nil => cases ht
          | cons b q =>
            simp only at ht
            split at ht
            · cases ht
            · have := full_of _ ht
              exact ⟨.inr (by rw [← this.1]), this.2⟩
      · rw [hothers n q (by simp at hn ⊢; grind)] at ht
        simp [typeOf, lookup, Dict.get?] at ht

/-- A type that belongs to the namespace `uavcan` directly (as `uavcan.Timestamp` does) is not found under any chain of names; one that belongs to
another root namespace of the package directly is found below `thirdparty` only. -/
theorem C113_root_types (calls : List (List DType)) (ts : List DType) (hv : ∀ us ∈ calls ++ [ts], ∀ t ∈ us, Valid t) (m : Mod)
    (h : loads (calls ++ [ts]) [] = .ok m) (t : DType) (r : String) (hr : r ∈ ["dronecan", "uavcan", "ardupilot", "com", "cuav"])
    (ht : t.path = [r]) (q : List String) (hq : typeOf m q = some t) : r ≠ "uavcan" ∧ q = "thirdparty" :: t.full := by
  obtain ⟨h1, h2⟩ := C113_nothing_else calls ts hv m h q t hq
  obtain ⟨m1, e1⟩ := loads_ok calls [] (fun us hu => hv us (by simp [hu]))
  obtain ⟨m2, e2, h3, h4, -⟩ := load_spec ts m1 (hv ts (by simp))
  rw [loads_append, e1] at h
  have h : load ts m1 = .ok m := h
  rw [e2] at h
  cases h
  have hfull : t.full = [r, t.name] := by simp [DType.full, ht]
  rcases h1 with h1 | h1
  · rw [h1, hfull, h3 r _ hr] at hq
    cases hq
  · refine ⟨?_, h1⟩
    intro hu
    rw [h1, hfull, h4, hu] at hq
    simp at hq

/-- The first call loads a type; a second one without it (for example with `exclude_dist=True`) makes it disappear. -/
theorem C113_counterexample : ¬ C113_statement := by
  intro h
  obtain ⟨m, e, h1⟩ := h [[⟨["uavcan", "protocol"], "NodeStatus", 0⟩], [⟨["vendor"], "Foo", 1⟩]] (by
    intro ts hts t ht
    simp at hts
    rcases hts with rfl | rfl
    · simp at ht
      subst ht
      exact ⟨by decide +kernel, by decide, by decide +kernel⟩
    · simp at ht
      subst ht
      exact ⟨by decide +kernel, by decide, by decide +kernel⟩)
  have h2 := h1 _ (List.mem_cons_self) _ (List.mem_cons_self)
  have e2 : (loads [[⟨["uavcan", "protocol"], "NodeStatus", 0⟩], [⟨["vendor"], "Foo", 1⟩]] []).map
      (fun m => typeOf m ["uavcan", "protocol", "NodeStatus"]) = .ok none := by decide +kernel
  rw [e] at e2
  simp only [Except.map] at e2
  have e3 : typeOf m ["uavcan", "protocol", "NodeStatus"] = none := by simpa using e2
  have e4 : place (DType.full ⟨["uavcan", "protocol"], "NodeStatus", 0⟩) = ["uavcan", "protocol", "NodeStatus"] := by decide +kernel
  rw [e4, e3] at h2
  exact absurd h2 (by decide +kernel)

/-- Types of the package, of a vendor, and one that cannot be found. -/
example : (loads [[⟨["uavcan", "protocol"], "NodeStatus", 0⟩, ⟨["uavcan"], "Timestamp", 1⟩, ⟨["vendor"], "Foo", 2⟩, ⟨["vendor", "x"], "Bar", 3⟩,
      ⟨["vendor"], "Foo", 4⟩]] []).map (fun m =>
    [typeOf m ["uavcan", "protocol", "NodeStatus"], typeOf m ["uavcan", "Timestamp"], typeOf m ["thirdparty", "uavcan", "Timestamp"],
      typeOf m ["thirdparty", "vendor", "Foo"], typeOf m ["thirdparty", "vendor", "x", "Bar"], typeOf m ["vendor", "Foo"]].map (·.map (·.id))) =
    .ok [some 0, none, none, some 4, some 3, none] := by decide +kernel

end Attributes
end Dronecan
