import Verif.Model.Namespaces
import Verif.Proofs.Dict

/-!
# Sets of definitions (C56, C67)
-/

namespace Dronecan
namespace Namespaces
variable {α : Type}

theorem ensureUnique_ok (seen seen' : Seen α) (t : Parsed α) (h : ensureUnique seen t = .ok seen') :
    (∀ k v, seen.get? k = some v → seen'.get? k = some v) ∧
    (∀ i, t.defaultDtid = some i → ∃ u, seen'.get? (t.kind, i) = some u ∧ u.dsdlSignature = t.dsdlSignature) ∧
    (∀ k v, seen'.get? k = some v → seen.get? k = some v ∨ (v = t ∧ k.1 = t.kind ∧ t.defaultDtid = some k.2)) := by
  unfold ensureUnique at h
  cases hd : t.defaultDtid with
  | none =>
    simp only [hd] at h
    cases h
    exact ⟨fun k v hv => hv, fun i hi => by simp at hi, fun k v hv => .inl hv⟩
  | some i =>
    simp only [hd] at h
    cases hs : seen.get? (t.kind, i) with
    | some first =>
      simp only [hs] at h
      split at h
      · simp at h
      · next hne =>
        cases h
        refine ⟨fun k v hv => hv, fun j hj => ?_, fun k v hv => .inl hv⟩
        cases hj
        exact ⟨first, hs, (Classical.not_not.1 hne).symm⟩
    | none =>
      simp only [hs] at h
      cases h
      refine ⟨fun k v hv => ?_, fun j hj => ?_, fun k v hv => ?_⟩
      · rw [Dict.get?_set_ne]
        · exact hv
        · intro hk; subst hk; rw [hs] at hv; simp at hv
      · cases hj
        exact ⟨t, Dict.get?_set_self _ _ _, rfl⟩
      · by_cases hk : (t.kind, i) = k
        · subst hk
          rw [Dict.get?_set_self] at hv
          cases hv
          exact .inr ⟨rfl, rfl, rfl⟩
        · rw [Dict.get?_set_ne _ _ hk] at hv
          exact .inl hv

theorem parseAll_ok (parse : String → Except Err (Parsed α)) (fs : List String) (seen seen' : Seen α) (ts : List (Parsed α))
    (h : parseAll parse fs seen = .ok (ts, seen')) :
    ts.map (Except.ok (ε := Err)) = fs.map parse ∧
    (∀ k v, seen.get? k = some v → seen'.get? k = some v) ∧
    (∀ t ∈ ts, ∀ i, t.defaultDtid = some i → ∃ u, seen'.get? (t.kind, i) = some u ∧ u.dsdlSignature = t.dsdlSignature) := by
  induction fs generalizing seen ts with
  | nil =>
    simp only [parseAll] at h
    cases h
    exact ⟨rfl, fun _ _ hv => hv, fun t ht => by simp at ht⟩
  | cons f fs ih =>
    simp only [parseAll] at h
    cases hp : parse f with
    | error e => simp [hp, bind, Except.bind] at h
    | ok t =>
      cases hu : ensureUnique seen t with
      | error e => simp [hp, hu, bind, Except.bind] at h
      | ok seen1 =>
        cases hr : parseAll parse fs seen1 with
        | error e => simp [hp, hu, hr, bind, Except.bind] at h
        | ok r =>
          obtain ⟨ts1, seen2⟩ := r
          simp only [hp, hu, hr, bind, Except.bind] at h
          cases h
          obtain ⟨a1, a2, a3⟩ := ih seen1 ts1 hr
          obtain ⟨b1, b2, _⟩ := ensureUnique_ok seen seen1 t hu
          refine ⟨by simp [a1, hp], fun k v hv => a2 k v (b1 k v hv), ?_⟩
          intro u hu' i hi
          rcases List.mem_cons.1 hu' with rfl | hm
          · obtain ⟨w, hw, hs⟩ := b2 i hi
            exact ⟨w, a2 _ _ hw, hs⟩
          · exact a3 u hm i hi

theorem parseNamespaces_ok (parse : String → Except Err (Parsed α)) (source : List String) (search : Option (List String)) (out : List (Parsed α))
    (h : parseNamespaces parse source search = .ok out) :
    out.map (Except.ok (ε := Err)) = source.map parse ∧
    ∃ seen : Seen α, ∀ f ∈ search.getD [] ++ source, ∃ t, parse f = .ok t ∧
      ∀ i, t.defaultDtid = some i → ∃ u, seen.get? (t.kind, i) = some u ∧ u.dsdlSignature = t.dsdlSignature := by
  unfold parseNamespaces at h
  cases h1 : parseAll parse (search.getD []) [] with
  | error e => simp [h1, bind, Except.bind] at h
  | ok r1 =>
    obtain ⟨ts1, seen1⟩ := r1
    cases h2 : parseAll parse source seen1 with
    | error e => simp [h1, h2, bind, Except.bind] at h
    | ok r2 =>
      obtain ⟨ts2, seen2⟩ := r2
      simp only [h1, h2, bind, Except.bind] at h
      cases h
      obtain ⟨a1, a2, a3⟩ := parseAll_ok _ _ _ _ _ h1
      obtain ⟨b1, b2, b3⟩ := parseAll_ok _ _ _ _ _ h2
      refine ⟨b1, seen2, ?_⟩
      intro f hf
      rcases List.mem_append.1 hf with hf | hf
      · have : parse f ∈ ts1.map (Except.ok (ε := Err)) := a1 ▸ List.mem_map_of_mem hf
        obtain ⟨t, ht, hpt⟩ := List.mem_map.1 this
        refine ⟨t, hpt.symm, fun i hi => ?_⟩
        obtain ⟨u, hu, hs⟩ := a3 t ht i hi
        exact ⟨u, b2 _ _ hu, hs⟩
      · have : parse f ∈ out.map (Except.ok (ε := Err)) := b1 ▸ List.mem_map_of_mem hf
        obtain ⟨t, ht, hpt⟩ := List.mem_map.1 this
        exact ⟨t, hpt.symm, fun i hi => b3 t ht i hi⟩

/-- No two of the definitions found give one data type ID of one kind two meanings. -/
def Consistent (parse : String → Except Err (Parsed α)) (files : List String) : Prop :=
  ∀ f ∈ files, ∀ g ∈ files, ∀ t u i, parse f = .ok t → parse g = .ok u → t.kind = u.kind → t.defaultDtid = some i →
    u.defaultDtid = some i → t.dsdlSignature = u.dsdlSignature

/-- If a set of namespaces is accepted, definitions of the same kind with the same data type ID have equal signatures. -/
theorem C56_unique (parse : String → Except Err (Parsed α)) (source : List String) (search : Option (List String)) (out : List (Parsed α))
    (h : parseNamespaces parse source search = .ok out) : Consistent parse (search.getD [] ++ source) := by
  obtain ⟨_, seen, hs⟩ := parseNamespaces_ok _ _ _ _ h
  intro f hf g hg t u i ht hu hk hti hui
  obtain ⟨t', ht', h1⟩ := hs f hf
  obtain ⟨u', hu', h2⟩ := hs g hg
  rw [ht] at ht'; cases ht'
  rw [hu] at hu'; cases hu'
  obtain ⟨a, ha, ha2⟩ := h1 i hti
  obtain ⟨b, hb, hb2⟩ := h2 i hui
  rw [hk, hb] at ha
  cases ha
  rw [← ha2, ← hb2]

theorem parseAll_accepts (parse : String → Except Err (Parsed α)) (all fs : List String) (hsub : ∀ f ∈ fs, f ∈ all)
    (hp : ∀ f ∈ all, ∃ t, parse f = .ok t) (hc : Consistent parse all) (seen : Seen α)
    (hseen : ∀ k v, seen.get? k = some v → v.kind = k.1 ∧ v.defaultDtid = some k.2 ∧ ∃ f ∈ all, parse f = .ok v) :
    ∃ ts seen', parseAll parse fs seen = .ok (ts, seen') ∧
      (∀ k v, seen'.get? k = some v → v.kind = k.1 ∧ v.defaultDtid = some k.2 ∧ ∃ f ∈ all, parse f = .ok v) := by
  induction fs generalizing seen with
  | nil => exact ⟨[], seen, rfl, hseen⟩
  | cons f fs ih =>
    obtain ⟨t, ht⟩ := hp f (hsub f (by simp))
    have hu : ∃ seen1, ensureUnique seen t = .ok seen1 := by
      unfold ensureUnique
      cases hd : t.defaultDtid with
      | none => exact ⟨_, rfl⟩
      | some i =>
        simp only
        cases hs : seen.get? (t.kind, i) with
        | none => exact ⟨_, rfl⟩
        | some v =>
          obtain ⟨h1, h2, g, hg, h3⟩ := hseen _ _ hs
          have := hc f (hsub f (by simp)) g hg t v i ht h3 h1.symm hd h2
          simp [this]
    obtain ⟨seen1, hu⟩ := hu
    obtain ⟨_, _, b3⟩ := ensureUnique_ok seen seen1 t hu
    obtain ⟨ts, seen', h1, h2⟩ := ih (fun g hg => hsub g (List.mem_cons_of_mem _ hg)) seen1 (by
      intro k v hv
      rcases b3 k v hv with h | ⟨rfl, h1, h2⟩
      · exact hseen k v h
      · exact ⟨h1.symm, h2, f, hsub f (by simp), ht⟩)
    exact ⟨t :: ts, seen', by simp [parseAll, ht, hu, h1, bind, Except.bind], h2⟩

/-- Exactly the consistent sets of files are accepted, whatever the order in which the files are found, and the result is one type
per source file, in that order. -/
theorem C56_accepted_iff (parse : String → Except Err (Parsed α)) (source : List String) (search : Option (List String)) (out : List (Parsed α)) :
    parseNamespaces parse source search = .ok out ↔
      (∀ f ∈ search.getD [], ∃ t, parse f = .ok t) ∧ source.map parse = out.map .ok ∧ Consistent parse (search.getD [] ++ source) := by
  constructor
  · intro h
    obtain ⟨h1, seen, h2⟩ := parseNamespaces_ok _ _ _ _ h
    refine ⟨fun f hf => ?_, h1.symm, C56_unique _ _ _ _ h⟩
    obtain ⟨t, ht, _⟩ := h2 f (List.mem_append_left _ hf)
    exact ⟨t, ht⟩
  · rintro ⟨h1, h2, h3⟩
    have hp : ∀ f ∈ search.getD [] ++ source, ∃ t, parse f = .ok t := by
      intro f hf
      rcases List.mem_append.1 hf with hf | hf
      · exact h1 f hf
      · have : parse f ∈ out.map (Except.ok (ε := Err)) := h2 ▸ List.mem_map_of_mem hf
        obtain ⟨t, _, ht⟩ := List.mem_map.1 this
        exact ⟨t, ht.symm⟩
    obtain ⟨ts1, seen1, e1, i1⟩ := parseAll_accepts parse _ (search.getD []) (fun f hf => List.mem_append_left _ hf) hp h3 []
      (fun k v hv => by simp [Dict.get?] at hv)
    obtain ⟨ts2, seen2, e2, _⟩ := parseAll_accepts parse _ source (fun f hf => List.mem_append_right _ hf) hp h3 seen1 i1
    have : parseNamespaces parse source search = .ok ts2 := by
      simp [parseNamespaces, e1, e2, bind, Except.bind]
    rw [this]
    obtain ⟨h4, _⟩ := parseNamespaces_ok _ _ _ _ this
    rw [h2] at h4
    have : ts2 = out := (List.map_inj_right (fun a b hab => by cases hab; rfl)).1 h4
    rw [this]

/-- Two definitions of one message, one of a service with the same ID, and one without an ID. -/
def exampleParse (f : String) : Except Err (Parsed Unit) :=
  if f = "a" ∨ f = "b" then .ok ⟨"x.A", .message, some 7, 100, 200, ()⟩
  else if f = "c" then .ok ⟨"x.C", .service, some 7, 101, 201, ()⟩
  else if f = "d" then .ok ⟨"x.D", .message, none, 102, 202, ()⟩
  else if f = "e" then .ok ⟨"x.E", .message, some 7, 103, 203, ()⟩
  else .error .dsdlException

example : parseNamespaces exampleParse ["a", "c", "d"] (some ["b"]) =
      .ok [⟨"x.A", .message, some 7, 100, 200, ()⟩, ⟨"x.C", .service, some 7, 101, 201, ()⟩, ⟨"x.D", .message, none, 102, 202, ()⟩] ∧
    parseNamespaces exampleParse ["a", "c", "d"] (some ["e"]) = .error .dsdlException := by decide +kernel

/-! ## C67: the tables -/

theorem foldl_register_get (ts : List (Parsed α)) (tb : Tables α) (i : Nat) (k : Kind) (hi : i ≠ 0) :
    (ts.foldl register tb).datatypes.get? (i, k) =
      match ts.reverse.find? (fun t => t.kind == k && t.defaultDtid == some i) with
      | some t => some ⟨t, crc16 0xFFFF (packLE 8 t.dataTypeSignature)⟩
      | none => tb.datatypes.get? (i, k) := by
  induction ts generalizing tb with
  | nil => rfl
  | cons t ts ih =>
    rw [List.foldl_cons, ih, List.reverse_cons, List.find?_append]
    cases hf : ts.reverse.find? (fun t => t.kind == k && t.defaultDtid == some i) with
    | some u => simp
    | none =>
      simp only [Option.none_or, List.find?_cons, List.find?_nil]
      unfold register
      cases hd : t.defaultDtid with
      | none => simp
      | some j =>
        by_cases hj : j = 0
        · subst hj
          have h0 : (0 == i) = false := by simp [Ne.symm hi]
          simp [h0]
        · simp only [hj, if_false, Dict.get?_set]
          by_cases h1 : (j, t.kind) = (i, k)
          · simp only [Prod.mk.injEq] at h1
            simp [h1.1, h1.2]
          · have : (t.kind == k && some j == some i) = false := by
              simp only [Prod.mk.injEq, not_and] at h1
              by_cases hji : j = i
              · simp [h1 hji, hji]
              · simp [hji]
            rw [this]
            rw [if_neg h1]

/-- Every definition with a data type ID can be looked up by it. -/
def C67_statement : Prop :=
  ∀ (parse : String → Except Err (Parsed Unit)) (files : List String) (tb tb' : Tables Unit), loadDsdl parse files tb = .ok tb' →
    ∀ f ∈ files, ∀ t i, parse f = .ok t → t.defaultDtid = some i →
      ∃ e, tb'.datatypes.get? (i, t.kind) = some e ∧ e.type.dsdlSignature = t.dsdlSignature ∧
        e.type.kind = t.kind ∧ e.type.defaultDtid = some i ∧ e.baseCrc = crc16 0xFFFF (packLE 8 e.type.dataTypeSignature)

/-- The ID zero is accepted by the parser (parser.py:789-800) but never registered. -/
theorem C67_counterexample : ¬ C67_statement := by
  intro h
  obtain ⟨e, he, _⟩ := h (fun _ => .ok ⟨"x.Z", .message, some 0, 1, 1, ()⟩) ["f"] {} ⟨[], [("x.Z", ⟨"x.Z", .message, some 0, 1, 1, ()⟩)]⟩
    (by decide +kernel) "f" (by simp) _ 0 rfl rfl
  simp [Dict.get?] at he

/-- What is missing: the ID zero. The entry is the definition loaded last. -/
theorem C67_lookup_partial (parse : String → Except Err (Parsed α)) (files : List String) (tb tb' : Tables α) (h : loadDsdl parse files tb = .ok tb')
    (f : String) (hf : f ∈ files) (t : Parsed α) (i : Nat) (ht : parse f = .ok t) (hi : t.defaultDtid = some i) (h0 : i ≠ 0) :
    ∃ e, tb'.datatypes.get? (i, t.kind) = some e ∧ e.type.dsdlSignature = t.dsdlSignature ∧
      e.type.kind = t.kind ∧ e.type.defaultDtid = some i ∧ e.baseCrc = crc16 0xFFFF (packLE 8 e.type.dataTypeSignature) := by
  unfold loadDsdl at h
  cases hp : parseNamespaces parse files none with
  | error e => simp [hp, bind, Except.bind] at h
  | ok ts =>
    simp only [hp, bind, Except.bind] at h
    cases h
    have hc := C56_unique _ _ _ _ hp
    obtain ⟨hm, _⟩ := parseNamespaces_ok _ _ _ _ hp
    rw [foldl_register_get _ _ _ _ h0]
    cases hfind : ts.reverse.find? (fun u => u.kind == t.kind && u.defaultDtid == some i) with
    | none =>
      rw [List.find?_eq_none] at hfind
      have : parse f ∈ ts.map (Except.ok (ε := Err)) := hm ▸ List.mem_map_of_mem hf
      obtain ⟨t', ht', h2⟩ := List.mem_map.1 this
      rw [ht] at h2
      cases h2
      exact absurd (by simp [hi]) (hfind t (by simpa using ht'))
    | some u =>
      have hu := List.find?_some hfind
      have hmem := List.mem_of_find?_eq_some hfind
      simp only [Bool.and_eq_true, beq_iff_eq] at hu
      refine ⟨_, rfl, ?_, hu.1, hu.2, rfl⟩
      have hmem' : u ∈ ts := by simpa using hmem
      have : Except.ok u ∈ files.map parse := hm ▸ List.mem_map_of_mem hmem'
      obtain ⟨g, hg, hgu⟩ := List.mem_map.1 this
      exact hc g (by simpa using hg) f (by simpa using hf) u t i hgu ht hu.1 hu.2 hi

/-- Loading again replaces entries and keeps the others. -/
theorem C67_kept (parse : String → Except Err (Parsed α)) (files : List String) (tb tb' : Tables α) (h : loadDsdl parse files tb = .ok tb')
    (i : Nat) (k : Kind) (hn : ∀ f ∈ files, ∀ t, parse f = .ok t → ¬ (t.kind = k ∧ t.defaultDtid = some i)) :
    tb'.datatypes.get? (i, k) = tb.datatypes.get? (i, k) := by
  unfold loadDsdl at h
  cases hp : parseNamespaces parse files none with
  | error e => simp [hp, bind, Except.bind] at h
  | ok ts =>
    simp only [hp, bind, Except.bind] at h
    cases h
    obtain ⟨hm, _⟩ := parseNamespaces_ok _ _ _ _ hp
    have hts : ∀ t ∈ ts, ¬ (t.kind = k ∧ t.defaultDtid = some i) := by
      intro t ht
      have : Except.ok t ∈ files.map parse := hm ▸ List.mem_map_of_mem ht
      obtain ⟨g, hg, hgt⟩ := List.mem_map.1 this
      exact hn g hg t hgt
    clear hm hp hn
    induction ts generalizing tb with
    | nil => rfl
    | cons t ts ih =>
      rw [List.foldl_cons, ih _ (fun u hu => hts u (List.mem_cons_of_mem _ hu))]
      have ht := hts t (by simp)
      unfold register
      cases hd : t.defaultDtid with
      | none => rfl
      | some j =>
        by_cases hj : j = 0
        · simp [hj]
        · simp only [hj, if_false]
          rw [Dict.get?_set_ne]
          intro he
          simp only [Prod.mk.injEq] at he
          exact ht ⟨he.2, by rw [hd, he.1]⟩

example : (loadDsdl exampleParse ["a", "b", "c", "d"] {}).toOption.map (fun tb => (tb.datatypes.map (·.1), tb.typenames.map (·.1))) =
    some ([(7, .message), (7, .service)], ["x.A", "x.C", "x.D"]) := by decide +kernel

end Namespaces
end Dronecan
