import Verif.Props.Normal

/-!
# File names (C80, C83)
-/

namespace Dronecan
namespace Parser

open Text

/-! ## Specification -/

/-- The path of a file in subdirectories of a directory. -/
def pathOf (dir : Str) (subs : List Str) (base : Str) : Str := dir ++ '/' :: (subs.map (· ++ ['/'])).flatten ++ base

/-- The base name of a definition: the data type ID, the short name, the version, the extension, separated by dots. -/
def baseName (dtid : Option Nat) (name : Str) (version : Option (Nat × Nat)) : Str :=
  (match dtid with | some i => decimal i ++ ['.'] | none => []) ++ name ++
  (match version with | some (a, b) => '.' :: decimal a ++ '.' :: decimal b | none => []) ++ lit ".uavcan"

/-- The file lies in the directory. -/
def Inside (dir filename : Str) : Prop := ∃ rest, filename = dir ++ '/' :: rest

/-! ## Proofs -/

theorem namespaceName_no {s : Str} (h : NamespaceName s) : '.' ∉ s ∧ '/' ∉ s := by
  obtain ⟨c, cs, rfl, h1, h2⟩ := h
  have gen : ∀ x : Char, 46 ≤ x.toNat → x.toNat ≤ 47 → x ∉ c :: cs := by
    intro x hx1 hx2 hm
    rcases List.mem_cons.1 hm with rfl | hm
    · have := h1.1; omega
    · rcases h2 x hm with h | h | rfl
      · have := h.1; omega
      · have := h.1; omega
      · revert hx1 hx2; decide
  exact ⟨gen '.' (by decide) (by decide), gen '/' (by decide) (by decide)⟩

theorem shortName_no {s : Str} (h : ShortName s) : '.' ∉ s ∧ '/' ∉ s := by
  obtain ⟨c, cs, rfl, h1, h2⟩ := h
  have gen : ∀ x : Char, 46 ≤ x.toNat → x.toNat ≤ 47 → x ∉ c :: cs := by
    intro x hx1 hx2 hm
    rcases List.mem_cons.1 hm with rfl | hm
    · have := h1.1; omega
    · rcases h2 x hm with h | h | h | rfl
      · have := h.1; omega
      · have := h.1; omega
      · have := h.1; omega
      · revert hx1 hx2; decide
  exact ⟨gen '.' (by decide) (by decide), gen '/' (by decide) (by decide)⟩

theorem decimal_no (n : Nat) : '.' ∉ decimal n ∧ '/' ∉ decimal n :=
  ⟨fun h => absurd (decimal_isDigit n _ h) (by decide), fun h => absurd (decimal_isDigit n _ h) (by decide)⟩

/-- The converse of `fullNameOk_name`. -/
theorem fullNameOk_of_name (s : Str) (h : TypeName s) : fullNameOk s = true := by
  have hdot := (typeName_plain h).2.1
  obtain ⟨hlen, ns, short, hne, hns, hshort, rfl⟩ := h
  have hsp : splitOn '.' (dotted ns ++ short) = ns ++ [short] := by
    rw [← joinWith_dotted]
    refine splitOn_joinWith '.' _ (by simp) ?_
    intro p hp
    rcases List.mem_append.1 hp with hp | hp
    · exact (namespaceName_no (hns p hp)).1
    · rw [List.mem_singleton.1 hp]; exact (shortName_no hshort).1
  have hj : splitOn '.' (joinWith (lit ".") ns) = ns := splitOn_joinWith '.' ns hne (fun p hp => (namespaceName_no (hns p hp)).1)
  have hjl : (joinWith (lit ".") ns).length ≤ 80 := by
    have : joinWith (lit ".") (ns ++ [short]) = joinWith (lit ".") ns ++ lit "." ++ short := joinWith_append (lit ".") ns short hne
    rw [joinWith_dotted] at this
    rw [this] at hlen
    simp only [List.length_append] at hlen
    omega
  simp only [fullNameOk, hsp, List.dropLast_concat, List.getLastD_concat, namespaceOk, hj, Bool.and_eq_true, decide_eq_true_eq,
    List.all_eq_true]
  refine ⟨⟨⟨by simpa using hdot, fun n hn => (namespaceComponentOk_iff n).2 (hns n hn), hjl⟩, (shortNameOk_iff _).2 hshort⟩, hlen⟩

theorem dropWhile_head (c : Char) (x : Str) (h : x.head? ≠ some c) : x.dropWhile (· == c) = x := by
  cases x with
  | nil => rfl
  | cons a x =>
    have : (a == c) = false := beq_eq_false_iff_ne.2 (fun e => h (by rw [e]; rfl))
    rw [List.dropWhile_cons, this]
    rfl

/-- One dot before and one after a text without dots at its ends. -/
theorem stripChar_dots (c : Char) (x : Str) (hx : x.head? ≠ some c) (hz : x.getLast? ≠ some c) (a b : Bool) :
    stripChar c ((if a then [c] else []) ++ x ++ (if b then [c] else [])) = x := by
  have h1 : ∀ y : Str, ((if a then [c] else []) ++ y).dropWhile (· == c) = y.dropWhile (· == c) := by
    intro y
    cases a <;> simp [List.dropWhile_cons]
  have h2 : ∀ y : Str, ((if b then [c] else []) ++ y).dropWhile (· == c) = y.dropWhile (· == c) := by
    intro y
    cases b <;> simp [List.dropWhile_cons]
  have h3 : x.reverse.dropWhile (· == c) = x.reverse := dropWhile_head c _ (by simpa using hz)
  unfold stripChar
  rw [List.append_assoc, h1]
  cases x with
  | nil => cases b <;> simp [List.dropWhile_cons]
  | cons y ys =>
    have e : (y :: ys ++ if b = true then [c] else []).dropWhile (· == c) = y :: ys ++ if b = true then [c] else [] :=
      dropWhile_head c _ (by simpa using hx)
    rw [e, List.reverse_append]
    have hb : (if b = true then [c] else []).reverse = if b = true then [c] else [] := by cases b <;> rfl
    rw [hb, h2, h3, List.reverse_reverse]

theorem namespaceName_ends {s : Str} (h : NamespaceName s) : s ≠ [] ∧ s.head? ≠ some '.' ∧ s.getLast? ≠ some '.' := by
  have hno := (namespaceName_no h).1
  refine ⟨?_, ?_, ?_⟩
  · obtain ⟨c, cs, rfl, -⟩ := h; simp
  · intro e; exact hno (List.mem_of_head? e)
  · intro e; exact hno (List.mem_of_getLast? e)

/-- Names joined by dots have no dots at the ends. -/
theorem join_ends (ns : List Str) (h : ∀ n ∈ ns, NamespaceName n) :
    (joinWith (lit ".") ns).head? ≠ some '.' ∧ (joinWith (lit ".") ns).getLast? ≠ some '.' := by
  induction ns with
  | nil => exact ⟨by decide, by decide⟩
  | cons n ns ih =>
    obtain ⟨hne, h1, h2⟩ := namespaceName_ends (h n List.mem_cons_self)
    cases ns with
    | nil => exact ⟨h1, h2⟩
    | cons m ns =>
      have ih := ih (fun x hx => h x (List.mem_cons_of_mem _ hx))
      have hm := (namespaceName_ends (h m (by simp))).1
      have hjne : joinWith (lit ".") (m :: ns) ≠ [] := by
        cases ns with
        | nil => exact hm
        | cons k ns => simp [joinWith, hm]
      refine ⟨?_, ?_⟩
      · rw [joinWith, List.append_assoc, List.head?_append]
        · cases hh : n.head? with
          | none => rw [List.head?_eq_none_iff] at hh; exact absurd hh hne
          | some c => rw [hh] at h1; exact h1
        · simp
      · rw [joinWith, List.getLast?_append]
        · cases hh : (joinWith (lit ".") (m :: ns)).getLast? with
          | none => rw [List.getLast?_eq_none_iff] at hh; exact absurd hh hjne
          | some c => rw [hh] at ih; exact ih.2
        · simp

theorem dotted_join (ns : List Str) : dotted ns = joinWith (lit ".") ns ++ (if ns = [] then [] else ['.']) := by
  cases ns with
  | nil => rfl
  | cons n ns =>
    have := joinWith_dotted (n :: ns) []
    rw [joinWith_append _ _ _ (by simp)] at this
    simp only [List.append_nil] at this
    rw [← this]
    rfl

theorem prefix_comparable (a b s : Str) (ha : a.isPrefixOf s = true) (hb : b.isPrefixOf s = true) :
    a.isPrefixOf b = true ∨ b.isPrefixOf a = true := by
  rw [List.isPrefixOf_iff_prefix] at *
  simp only [List.isPrefixOf_iff_prefix]
  exact List.prefix_or_prefix_of_prefix ha hb

/-- Of allowed search directories at most one is the beginning of a file name. -/
theorem searchDirs_unique (dirs : List Str) (hd : searchDirsOk dirs = true) (s a b : Str) (ha : a ∈ dirs) (hb : b ∈ dirs)
    (hpa : a.isPrefixOf s = true) (hpb : b.isPrefixOf s = true) : a = b := by
  simp only [searchDirsOk, List.all_eq_true] at hd
  have h1 := hd a ha b hb
  have h2 := hd b hb a ha
  simp only [Bool.or_eq_true, decide_eq_true_eq, Bool.not_eq_true'] at h1 h2
  rcases prefix_comparable a b s hpa hpb with h | h
  · rcases h2 with h2 | h2
    · exact h2.symm
    · rw [h] at h2; cases h2
  · rcases h1 with h1 | h1
    · exact h1
    · rw [h] at h1; cases h1

theorem find_dir (dirs : List Str) (hd : searchDirsOk dirs = true) (s a : Str) (ha : a ∈ dirs) (hp : a.isPrefixOf s = true) :
    dirs.find? (fun d => d.isPrefixOf s) = some a := by
  cases hf : dirs.find? (fun d => d.isPrefixOf s) with
  | none =>
    rw [List.find?_eq_none] at hf
    exact absurd hp (hf a ha)
  | some b =>
    rw [searchDirs_unique dirs hd s a b ha (List.mem_of_find?_eq_some hf) hp (by simpa using List.find?_some hf)]

theorem basename_path (a base : Str) (h : '/' ∉ base) : basename (a ++ '/' :: base) = base := by
  have gen : ∀ (a cur : Str), (splitOnAux '/' cur (a ++ '/' :: base)).getLastD [] = base := by
    intro a
    induction a with
    | nil =>
      intro cur
      simp only [List.nil_append, splitOnAux, if_true]
      rw [splitOnAux_last '/' base h []]
      rfl
    | cons c a ih =>
      intro cur
      simp only [List.cons_append, splitOnAux]
      split
      · have := ih []
        have hne : splitOnAux '/' [] (a ++ '/' :: base) ≠ [] := splitOn_ne '/' _
        cases hh : splitOnAux '/' [] (a ++ '/' :: base) with
        | nil => exact absurd hh hne
        | cons x xs => rw [hh] at this; simpa using this
      · exact ih _
  exact gen a []

theorem basename_pathOf (dir : Str) (subs : List Str) (base : Str) (h : '/' ∉ base) : basename (pathOf dir subs base) = base := by
  unfold pathOf
  rcases List.eq_nil_or_concat subs with rfl | ⟨init, l, rfl⟩
  · simpa using basename_path dir base h
  · have := basename_path (dir ++ '/' :: (init.map (· ++ ['/'])).flatten ++ l) base h
    simpa using this

theorem flatten_dots (subs : List Str) (h : ∀ n ∈ subs, NamespaceName n) :
    ((subs.map (· ++ ['/'])).flatten).map (fun c => if c = '/' then '.' else c) = dotted subs := by
  induction subs with
  | nil => rfl
  | cons n subs ih =>
    have hn := (namespaceName_no (h n List.mem_cons_self)).2
    have hmap : n.map (fun c => if c = '/' then '.' else c) = n := by
      conv => rhs; rw [← List.map_id n]
      refine List.map_congr_left (fun c hc => ?_)
      have hc' : c ≠ '/' := fun e => hn (e ▸ hc)
      simp [hc']
    simp only [List.map_cons, List.flatten_cons, List.map_append, dotted, List.map_nil, if_true]
    rw [hmap]
    congr 1
    exact ih (fun x hx => h x (List.mem_cons_of_mem _ hx))

theorem namespace_pathOf (dirs : List Str) (hd : searchDirsOk dirs = true) (dir : Str) (hdir : dir ∈ dirs) (root : Str) (subs : List Str)
    (hroot : (splitOn '/' dir).getLastD [] = root) (hns : ∀ n ∈ root :: subs, NamespaceName n) (base : Str) (hb : '/' ∉ base)
    (hlen : (joinWith (lit ".") (root :: subs)).length ≤ 80) :
    namespaceFromFilename dirs (pathOf dir subs base) = .ok (joinWith (lit ".") (root :: subs)) := by
  have hp : dir.isPrefixOf (pathOf dir subs base) = true := by
    rw [List.isPrefixOf_iff_prefix, pathOf, List.append_assoc]
    exact List.prefix_append _ _
  have hmid : (((pathOf dir subs base).drop dir.length).take ((pathOf dir subs base).length - dir.length - base.length)) =
      '/' :: (subs.map (· ++ ['/'])).flatten := by
    have e : (pathOf dir subs base).drop dir.length = '/' :: (subs.map (· ++ ['/'])).flatten ++ base := by
      unfold pathOf; rw [List.append_assoc]; simp
    have el : (pathOf dir subs base).length - dir.length - base.length = ('/' :: (subs.map (· ++ ['/'])).flatten).length := by
      unfold pathOf; simp only [List.length_append]; omega
    rw [e, el, List.take_left]
  have hsub : ∀ n ∈ subs, NamespaceName n := fun n hn => hns n (List.mem_cons_of_mem _ hn)
  have h1 : stripChar '.' (('/' :: (subs.map (· ++ ['/'])).flatten).map (fun c => if c = '/' then '.' else c)) = joinWith (lit ".") subs := by
    rw [List.map_cons, if_pos rfl, flatten_dots subs hsub, dotted_join]
    obtain ⟨e1, e2⟩ := join_ends subs hsub
    cases subs with
    | nil => rfl
    | cons n subs =>
      have := stripChar_dots '.' _ e1 e2 true true
      simpa using this
  have h2 : stripChar '.' (root ++ lit "." ++ joinWith (lit ".") subs) = joinWith (lit ".") (root :: subs) := by
    cases subs with
    | nil =>
      obtain ⟨-, e1, e2⟩ := namespaceName_ends (hns root List.mem_cons_self)
      have := stripChar_dots '.' root e1 e2 false true
      simpa [joinWith, lit] using this
    | cons n subs =>
      obtain ⟨e1, e2⟩ := join_ends (root :: n :: subs) hns
      have := stripChar_dots '.' _ e1 e2 false false
      simpa [joinWith, lit] using this
  have h3 : namespaceOk (joinWith (lit ".") (root :: subs)) = true := by
    have := splitOn_joinWith '.' (root :: subs) (by simp) (fun p hp => (namespaceName_no (hns p hp)).1)
    simp only [namespaceOk, Bool.and_eq_true, List.all_eq_true, decide_eq_true_eq]
    refine ⟨?_, hlen⟩
    intro n hn
    rw [show lit "." = ['.'] from rfl, this] at hn
    exact (namespaceComponentOk_iff n).2 (hns n hn)
  simp only [namespaceFromFilename, find_dir dirs hd _ dir hdir hp, hroot, basename_pathOf dir subs base hb, hmid, h1, h2, h3, if_true]

/-! ## Theorems -/

/-- What the path of a definition says. -/
theorem C80_file_name (dirs : List Str) (hd : searchDirsOk dirs = true) (dir : Str) (hdir : dir ∈ dirs) (root : Str) (subs : List Str)
    (hroot : (splitOn '/' dir).getLastD [] = root) (hns : ∀ n ∈ root :: subs, NamespaceName n) (name : Str) (hname : ShortName name)
    (hlen : (dotted (root :: subs) ++ name).length ≤ 80) (dtid : Option Nat) (version : Option (Nat × Nat)) :
    fileInfo dirs (pathOf dir subs (baseName dtid name version)) =
      .ok (dotted (root :: subs) ++ name, version.map (fun v => ((v.1 : Int), (v.2 : Int))), dtid.map (fun i : Nat => (i : Int))) := by
  obtain ⟨hn1, hn2⟩ := shortName_no hname
  have hu : '.' ∉ lit "uavcan" ∧ '/' ∉ lit "uavcan" := by decide
  have hfull : joinWith (lit ".") (root :: subs) ++ lit "." ++ name = dotted (root :: subs) ++ name := by
    rw [← joinWith_dotted, joinWith_append _ _ _ (by simp)]
  have hjl : (joinWith (lit ".") (root :: subs)).length ≤ 80 := by
    rw [← hfull] at hlen
    simp only [List.length_append] at hlen
    omega
  have hok : fullNameOk (dotted (root :: subs) ++ name) = true :=
    fullNameOk_of_name _ ⟨hlen, root :: subs, name, by simp, hns, hname, rfl⟩
  have gen : ∀ (items : List Str) (base : Str), base = joinWith ['.'] items → items ≠ [] → (∀ p ∈ items, '.' ∉ p ∧ '/' ∉ p) →
      '/' ∉ base ∧ splitOn '.' base = items := by
    intro items base hbase hne hp
    subst hbase
    refine ⟨?_, splitOn_joinWith '.' items hne (fun p hp' => (hp p hp').1)⟩
    clear hne
    induction items with
    | nil => simp [joinWith]
    | cons x xs ih =>
      have hx := (hp x List.mem_cons_self).2
      have ih := ih (fun p hp' => hp p (List.mem_cons_of_mem _ hp'))
      cases xs with
      | nil => exact hx
      | cons y ys =>
        rw [joinWith]
        · intro hm
          rcases List.mem_append.1 hm with hm | hm
          · rcases List.mem_append.1 hm with hm | hm
            · exact hx hm
            · exact absurd hm (by decide)
          · exact ih hm
        · simp
  have hdec := decimal_no
  cases dtid with
  | none =>
    cases version with
    | none =>
      obtain ⟨hb, hs⟩ := gen [name, lit "uavcan"] (baseName none name none) (by simp [baseName, joinWith, lit]) (by simp) (by
        intro p hp
        simp only [List.mem_cons, List.not_mem_nil, or_false] at hp
        rcases hp with rfl | rfl
        · exact ⟨hn1, hn2⟩
        · exact hu)
      simp only [fileInfo, basename_pathOf dir subs _ hb, hs]
      rw [namespace_pathOf dirs hd dir hdir root subs hroot hns _ hb hjl]
      show (enforce (fullNameOk (joinWith (lit ".") (root :: subs) ++ lit "." ++ name))).bind
        (fun _ => Except.ok (joinWith (lit ".") (root :: subs) ++ lit "." ++ name, _, _)) = _
      rw [hfull, hok]
      rfl
    | some v =>
      obtain ⟨a, b⟩ := v
      obtain ⟨hb, hs⟩ := gen [name, decimal a, decimal b, lit "uavcan"] (baseName none name (some (a, b))) (by simp [baseName, joinWith, lit])
        (by simp) (by
        intro p hp
        simp only [List.mem_cons, List.not_mem_nil, or_false] at hp
        rcases hp with rfl | rfl | rfl | rfl
        · exact ⟨hn1, hn2⟩
        · exact hdec a
        · exact hdec b
        · exact hu)
      have hv : fileVersion [name, decimal a, decimal b, lit "uavcan"] = .ok (some ((a : Int), (b : Int))) := by
        show (match int10 (decimal a), int10 (decimal b) with
          | some x, some y => Except.ok (some (x, y))
          | _, _ => fail) = _
        rw [int10_decimal, int10_decimal]
      simp only [fileInfo, basename_pathOf dir subs _ hb, hs, hv]
      rw [namespace_pathOf dirs hd dir hdir root subs hroot hns _ hb hjl]
      show (enforce (fullNameOk (joinWith (lit ".") (root :: subs) ++ lit "." ++ name))).bind
        (fun _ => Except.ok (joinWith (lit ".") (root :: subs) ++ lit "." ++ name, _, _)) = _
      rw [hfull, hok]
      rfl
  | some i =>
    cases version with
    | none =>
      obtain ⟨hb, hs⟩ := gen [decimal i, name, lit "uavcan"] (baseName (some i) name none) (by simp [baseName, joinWith, lit]) (by simp) (by
        intro p hp
        simp only [List.mem_cons, List.not_mem_nil, or_false] at hp
        rcases hp with rfl | rfl | rfl
        · exact hdec i
        · exact ⟨hn1, hn2⟩
        · exact hu)
      have hid : fileId [decimal i, name, lit "uavcan"] = .ok (some (i : Int), name) := by
        show (match int10 (decimal i) with
          | some x => Except.ok (some x, name)
          | none => fail) = _
        rw [int10_decimal]
      simp only [fileInfo, basename_pathOf dir subs _ hb, hs, hid]
      rw [namespace_pathOf dirs hd dir hdir root subs hroot hns _ hb hjl]
      show (enforce (fullNameOk (joinWith (lit ".") (root :: subs) ++ lit "." ++ name))).bind
        (fun _ => Except.ok (joinWith (lit ".") (root :: subs) ++ lit "." ++ name, _, _)) = _
      rw [hfull, hok]
      rfl
    | some v =>
      obtain ⟨a, b⟩ := v
      obtain ⟨hb, hs⟩ := gen [decimal i, name, decimal a, decimal b, lit "uavcan"] (baseName (some i) name (some (a, b)))
        (by simp [baseName, joinWith, lit]) (by simp) (by
        intro p hp
        simp only [List.mem_cons, List.not_mem_nil, or_false] at hp
        rcases hp with rfl | rfl | rfl | rfl | rfl
        · exact hdec i
        · exact ⟨hn1, hn2⟩
        · exact hdec a
        · exact hdec b
        · exact hu)
      have hid : fileId [decimal i, name, decimal a, decimal b, lit "uavcan"] = .ok (some (i : Int), name) := by
        show (match int10 (decimal i) with
          | some x => Except.ok (some x, name)
          | none => fail) = _
        rw [int10_decimal]
      have hv : fileVersion [decimal i, name, decimal a, decimal b, lit "uavcan"] = .ok (some ((a : Int), (b : Int))) := by
        show (match int10 (decimal a), int10 (decimal b) with
          | some x, some y => Except.ok (some (x, y))
          | _, _ => fail) = _
        rw [int10_decimal, int10_decimal]
      simp only [fileInfo, basename_pathOf dir subs _ hb, hs, hid, hv]
      rw [namespace_pathOf dirs hd dir hdir root subs hroot hns _ hb hjl]
      show (enforce (fullNameOk (joinWith (lit ".") (root :: subs) ++ lit "." ++ name))).bind
        (fun _ => Except.ok (joinWith (lit ".") (root :: subs) ++ lit "." ++ name, _, _)) = _
      rw [hfull, hok]
      rfl

/-- The order of the search directories does not matter for what a file name says. -/
theorem C80_order (dirs dirs' : List Str) (hd : searchDirsOk dirs = true) (hsame : ∀ d, d ∈ dirs ↔ d ∈ dirs') (filename : Str) :
    fileInfo dirs filename = fileInfo dirs' filename := by
  have hd' : searchDirsOk dirs' = true := by
    simp only [searchDirsOk, List.all_eq_true] at hd ⊢
    exact fun a ha b hb => hd a ((hsame a).2 ha) b ((hsame b).2 hb)
  have hfind : dirs.find? (fun d => d.isPrefixOf filename) = dirs'.find? (fun d => d.isPrefixOf filename) := by
    cases hf : dirs.find? (fun d => d.isPrefixOf filename) with
    | some a =>
      exact (find_dir dirs' hd' filename a ((hsame a).1 (List.mem_of_find?_eq_some hf)) (by simpa using List.find?_some hf)).symm
    | none =>
      rw [List.find?_eq_none] at hf
      symm
      rw [List.find?_eq_none]
      exact fun x hx => hf x ((hsame x).2 hx)
  have : namespaceFromFilename dirs filename = namespaceFromFilename dirs' filename := by
    simp only [namespaceFromFilename, hfind]
  simp only [fileInfo, this]

/-- A file name that is accepted is of that form: a data type ID or none, a name, a version or none, and the extension, separated by dots, behind
a slash or nothing. -/
theorem C80_only (dirs : List Str) (filename full : Str) (version : Option (Int × Int)) (dtid : Option Int)
    (h : fileInfo dirs filename = .ok (full, version, dtid)) :
    ∃ path id name v ns, filename = path ++ id ++ name ++ v ++ ".uavcan".toList ∧ (path = [] ∨ path.getLast? = some '/') ∧ full = ns ++ '.' :: name ∧
      '.' ∉ name ∧ '/' ∉ name ∧
      (dtid = none ∧ id = [] ∨ ∃ t i, dtid = some i ∧ id = t ++ ['.'] ∧ int10 t = some i) ∧
      (version = none ∧ v = [] ∨ ∃ s t a b, version = some (a, b) ∧ v = '.' :: s ++ '.' :: t ∧ int10 s = some a ∧ int10 t = some b) := by
  have split : ∃ path, filename = path ++ basename filename ∧ (path = [] ∨ path.getLast? = some '/') := by
    have hj := joinWith_splitOn '/' filename
    rcases List.eq_nil_or_concat (splitOn '/' filename) with e | ⟨l, x, e⟩
    · exact absurd e (splitOn_ne _ _)
    · rw [List.concat_eq_append] at e
      have hb : basename filename = x := by simp [basename, e]
      rw [hb]
      cases l with
      | nil => rw [e] at hj; exact ⟨[], hj.symm, .inl rfl⟩
      | cons y l =>
        rw [e, joinWith_append _ _ _ (by simp)] at hj
        exact ⟨_, hj.symm, .inr (by simp)⟩
  have noSlash : '/' ∉ basename filename := by
    rcases List.eq_nil_or_concat (splitOn '/' filename) with e | ⟨l, x, e⟩
    · exact absurd e (splitOn_ne _ _)
    · rw [List.concat_eq_append] at e
      have hb : basename filename = x := by simp [basename, e]
      rw [hb]
      exact splitOn_no_sep '/' filename x (by rw [e]; simp)
  obtain ⟨path, hp, hp'⟩ := split
  have hj := joinWith_splitOn '.' (basename filename)
  have hdot := splitOn_no_sep '.' (basename filename)
  simp only [fileInfo] at h
  generalize splitOn '.' (basename filename) = items at h hj hdot
  have parts : ∃ id name v ns, basename filename = id ++ name ++ v ++ ".uavcan".toList ∧ full = ns ++ '.' :: name ∧ '.' ∉ name ∧
      (dtid = none ∧ id = [] ∨ ∃ t i, dtid = some i ∧ id = t ++ ['.'] ∧ int10 t = some i) ∧
      (version = none ∧ v = [] ∨ ∃ s t a b, version = some (a, b) ∧ v = '.' :: s ++ '.' :: t ∧ int10 s = some a ∧ int10 t = some b) := by
    rw [← hj]
    by_cases hc : (2 ≤ items.length && items.length ≤ 5 && items.getLastD [] = lit "uavcan") = true
    · simp only [hc, enforce, if_true] at h
      simp only [Bool.and_eq_true, decide_eq_true_eq] at hc
      cases hi : fileId items with
      | error e => rw [hi] at h; exact nomatch h
      | ok r =>
        obtain ⟨d, name⟩ := r
        cases hv : fileVersion items with
        | error e => rw [hi, hv] at h; exact nomatch h
        | ok v =>
          cases hn : namespaceFromFilename dirs filename with
          | error e => rw [hi, hv, hn] at h; exact nomatch h
          | ok ns =>
            rw [hi, hv, hn] at h
            have h' : full = ns ++ lit "." ++ name ∧ version = v ∧ dtid = d := by
              by_cases hf : fullNameOk (ns ++ lit "." ++ name) = true
              · have := Except.ok.inj (h.symm.trans (show _ = Except.ok (ns ++ lit "." ++ name, v, d) by simp only [bind, Except.bind, hf, if_true]))
                simp only [Prod.mk.injEq] at this
                exact this
              · exact absurd h (by simp only [bind, Except.bind, hf, fail]; exact fun t => nomatch t)
            obtain ⟨rfl, rfl, rfl⟩ := h'
            clear h hp hp' hj noSlash hn
            match items, hc, hi, hv, hdot with
            | [a, z], hc, hi, hv, hdot =>
              simp [fileId] at hi
              simp [fileVersion] at hv
              have hz : z = lit "uavcan" := hc.2
              exact ⟨[], a, [], ns, by simp [joinWith, hz, lit], by simp [← hi.2, lit], hi.2 ▸ hdot a (by simp), .inl ⟨hi.1.symm, rfl⟩, .inl ⟨hv.symm, rfl⟩⟩
            | [a, b, z], hc, hi, hv, hdot =>
              have hz : z = lit "uavcan" := hc.2
              simp [fileVersion] at hv
              simp only [fileId] at hi
              rw [if_neg (by simp)] at hi
              cases hn : int10 a with
              | none => simp [hn, fail] at hi
              | some i =>
                simp [hn] at hi
                exact ⟨a ++ ['.'], b, [], ns, by simp [joinWith, hz, lit], by simp [← hi.2, lit], hi.2 ▸ hdot b (by simp),
                  .inr ⟨a, i, hi.1.symm, rfl, hn⟩, .inl ⟨hv.symm, rfl⟩⟩
            | [a, b, c, z], hc, hi, hv, hdot =>
              have hz : z = lit "uavcan" := hc.2
              simp [fileId] at hi
              simp only [fileVersion] at hv
              rw [if_neg (by simp)] at hv
              cases hb : int10 b with
              | none => simp [hb, fail] at hv
              | some i =>
                cases hk : int10 c with
                | none => simp [hb, hk, fail] at hv
                | some k =>
                  simp [hb, hk] at hv
                  exact ⟨[], a, '.' :: b ++ '.' :: c, ns, by simp [joinWith, hz, lit], by simp [← hi.2, lit], hi.2 ▸ hdot a (by simp),
                    .inl ⟨hi.1.symm, rfl⟩, .inr ⟨b, c, i, k, hv.symm, rfl, hb, hk⟩⟩
            | [a, b, c, e, z], hc, hi, hv, hdot =>
              have hz : z = lit "uavcan" := hc.2
              simp only [fileId] at hi
              rw [if_neg (by simp)] at hi
              simp only [fileVersion] at hv
              rw [if_neg (by simp)] at hv
              cases hn : int10 a with
              | none => simp [hn, fail] at hi
              | some n =>
                simp [hn] at hi
                cases hb : int10 c with
                | none => simp [hb, fail] at hv
                | some i =>
                  cases hk : int10 e with
                  | none => simp [hb, hk, fail] at hv
                  | some k =>
                    simp [hb, hk] at hv
                    exact ⟨a ++ ['.'], b, '.' :: c ++ '.' :: e, ns, by simp [joinWith, hz, lit], by simp [← hi.2, lit], hi.2 ▸ hdot b (by simp),
                      .inr ⟨a, n, hi.1.symm, rfl, hn⟩, .inr ⟨c, e, i, k, hv.symm, rfl, hb, hk⟩⟩
            | [], hc, _, _, _ => simp at hc
            | [a], hc, _, _, _ => simp at hc
            | a :: b :: c :: d :: e :: f :: l, hc, _, _, _ => simp at hc
    · simp only [hc, enforce] at h; exact nomatch h
  obtain ⟨id, name, v, ns, hb, hfull, hname, hid, hver⟩ := parts
  refine ⟨path, id, name, v, ns, ?_, hp', hfull, hname, fun hx => noSlash ?_, hid, hver⟩
  · refine hp.trans ?_
    rw [hb]; simp only [List.append_assoc]
  · rw [hb]; simp only [List.mem_append]; exact .inl (.inl (.inr hx))
/-- A file with another extension is refused. -/
example : fileInfo [lit "/d/ns"] (lit "/d/ns/77.B.1.20.txt") = .error .dsdlException := by decide +kernel

example : fileInfo [lit "/x/other", lit "/d/ns"] (pathOf (lit "/d/ns") [lit "sub", lit "k_2"] (baseName (some 77) (lit "B") (some (1, 20)))) =
    .ok (lit "ns.sub.k_2.B", some (1, 20), some 77) := by decide +kernel

/-! ## Where a file lies -/

/-- A file that is accepted lies in a search directory. -/
def C83_statement : Prop :=
  ∀ (fs : FS) (eval : Str → Option PyVal) (dirs : List Str), searchDirsOk dirs = true → ∀ (n : Nat) (filename : Str) (d : Def),
    parse fs eval dirs n filename = .ok d → ∃ dir ∈ dirs, Inside dir filename

/-- A file next to the search directory, in a directory whose name only begins the same. -/
def strayFS : FS where
  read s := if s = lit "/a/nsfoo/X.uavcan" then some (lit "uint8 x") else none
  listdir _ := none
  isfile s := s = lit "/a/nsfoo/X.uavcan"

/-- It is false: the search directory need only be a beginning of the text of the file name. -/
theorem C83_counterexample : ¬ C83_statement := by
  intro h
  have hp : ∃ d, parse strayFS (fun _ => none) [lit "/a/ns"] 1 (lit "/a/nsfoo/X.uavcan") = .ok d := by
    cases hh : parse strayFS (fun _ => none) [lit "/a/ns"] 1 (lit "/a/nsfoo/X.uavcan") with
    | ok d => exact ⟨d, rfl⟩
    | error e =>
      have : (match parse strayFS (fun _ => none) [lit "/a/ns"] 1 (lit "/a/nsfoo/X.uavcan") with
        | .ok _ => true
        | .error _ => false) = true := by decide +kernel
      rw [hh] at this
      cases this
  obtain ⟨d, hd⟩ := hp
  obtain ⟨dir, hm, rest, hr⟩ := h _ _ _ (by decide) _ _ _ hd
  rw [List.mem_singleton.1 hm] at hr
  exact absurd (congrArg (fun s => s.drop 5 |>.head?) hr) (by simp [lit])

/-- The type gets the name of a directory that does not exist. -/
example : fileInfo [lit "/a/ns"] (lit "/a/nsfoo/X.uavcan") = .ok (lit "ns.foo.X", none, none) := by decide +kernel

/-- Two directories side by side are refused as nested. -/
example : searchDirsOk [lit "/a/ns", lit "/a/nsfoo"] = false := by decide

/-- What holds: a search directory is a beginning of the file name. -/
theorem C83_prefix_partial (fs : FS) (eval : Str → Option PyVal) (dirs : List Str) (n : Nat) (filename : Str) (d : Def)
    (h : parse fs eval dirs n filename = .ok d) : ∃ dir ∈ dirs, ∃ rest, filename = dir ++ rest := by
  cases n with
  | zero => cases h
  | succ n =>
    simp only [parse] at h
    split at h
    · cases h
    · obtain ⟨info, hi, -⟩ := bind_ok h
      simp only [fileInfo] at hi
      obtain ⟨-, hi⟩ := enforce_bind hi
      obtain ⟨a, -, hi⟩ := bind_ok hi
      obtain ⟨v, -, hi⟩ := bind_ok hi
      obtain ⟨ns, hns, -⟩ := bind_ok hi
      unfold namespaceFromFilename at hns
      split at hns
      · cases hns
      · rename_i dir hf
        have hp := List.find?_some hf
        simp only [List.isPrefixOf_iff_prefix] at hp
        obtain ⟨rest, hr⟩ := hp
        exact ⟨dir, List.mem_of_find?_eq_some hf, rest, hr.symm⟩

/-- The file of every structure that is referred to lies in a search directory. -/
theorem C83_located_partial (fs : FS) (dirs : List Str) (r s fn : Str) (h : locate fs dirs r s = .ok fn) :
    ∃ dir ∈ dirs, Inside dir fn := by
  obtain ⟨full, i, -, -, -, -, dir, hd, listing, base, -, -, -, rfl⟩ := locate_found fs dirs r s fn h
  refine ⟨dir, hd, ?_⟩
  cases hc : ((splitOn '.' full).dropLast).tail with
  | nil => exact ⟨base, by simp [pathJoin, joinWith, lit]⟩
  | cons x xs => exact ⟨joinWith (lit "/") (x :: xs) ++ lit "/" ++ base, by simp [pathJoin, joinWith, lit]⟩

/-! ## Files can be referred to -/

/-- The file that has the full name of a file accepted by its name can be found. -/
def C84_statement : Prop :=
  ∀ (fs : FS) (dirs : List Str), searchDirsOk dirs = true →
    ∀ (dir : Str) (listing : List Str) (base : Str), fs.listdir dir = some listing → base ∈ listing → fs.isfile (dir ++ '/' :: base) = true →
    ∀ i, fileInfo dirs (dir ++ '/' :: base) = .ok i → ∀ r, ∃ fn j, locate fs dirs r i.1 = .ok fn ∧ fileInfo dirs fn = .ok j ∧ j.1 = i.1

/-- A file in a directory with a dot in its name. -/
def dottedFS : FS where
  read _ := none
  listdir s := if s = lit "/ns/a.b" then some [lit "X.uavcan"] else none
  isfile s := s = lit "/ns/a.b/X.uavcan"

/-- It is false: the dot in the name of a directory separates components of the namespace, which are looked up as nested directories. -/
theorem C84_counterexample : ¬ C84_statement := by
  intro h
  have hi : fileInfo [lit "/ns"] (lit "/ns/a.b" ++ '/' :: lit "X.uavcan") = .ok (lit "ns.a.b.X", none, none) := by decide +kernel
  obtain ⟨fn, j, hl, -⟩ := h dottedFS [lit "/ns"] (by decide) (lit "/ns/a.b") [lit "X.uavcan"] (lit "X.uavcan") (by decide) (by simp)
    (by decide) _ hi []
  have hb : (match locate dottedFS [lit "/ns"] [] (lit "ns.a.b.X") with
    | .ok _ => true
    | .error _ => false) = false := by decide +kernel
  dsimp only at hl
  rw [hl] at hb
  cases hb

theorem pathJoin_pathOf (dir : Str) (subs : List Str) (base : Str) : pathJoin (pathJoin dir subs) [base] = pathOf dir subs base := by
  have gen : ∀ (subs : List Str) (a : Str), joinWith (lit "/") (a :: subs) ++ lit "/" ++ base = a ++ '/' :: (subs.map (· ++ ['/'])).flatten ++ base := by
    intro subs
    induction subs with
    | nil => intro a; simp [joinWith, lit]
    | cons x xs ih =>
      intro a
      have := ih x
      rw [joinWith]
      · rw [List.append_assoc, List.append_assoc, ← List.append_assoc _ (lit "/") base, this]
        simp [lit]
      · simp
  simpa [pathJoin, joinWith, pathOf] using gen subs dir

/-- What holds: a file in directories named like components of a namespace is found by its full name, from any file; when no other file
says the same name it is that very file. -/
theorem C84_found_partial (fs : FS) (dirs : List Str) (hd : searchDirsOk dirs = true) (dir : Str) (hdir : dir ∈ dirs) (root : Str)
    (subs : List Str) (hroot : (splitOn '/' dir).getLastD [] = root) (hns : ∀ n ∈ root :: subs, NamespaceName n) (name : Str)
    (hname : ShortName name) (hlen : (dotted (root :: subs) ++ name).length ≤ 80) (dtid : Option Nat) (version : Option (Nat × Nat))
    (listing : List Str) (hl : fs.listdir (pathJoin dir subs) = some listing) (hb : baseName dtid name version ∈ listing)
    (hf : fs.isfile (pathOf dir subs (baseName dtid name version)) = true) (r : Str) :
    ∃ fn j, locate fs dirs r (dotted (root :: subs) ++ name) = .ok fn ∧ fileInfo dirs fn = .ok j ∧ j.1 = dotted (root :: subs) ++ name ∧
      ((∀ fn' j', fs.isfile fn' = true → fileInfo dirs fn' = .ok j' → j'.1 = dotted (root :: subs) ++ name →
        fn' = pathOf dir subs (baseName dtid name version)) → fn = pathOf dir subs (baseName dtid name version)) := by
  have hinfo := C80_file_name dirs hd dir hdir root subs hroot hns name hname hlen dtid version
  have hsp : splitOn '.' (dotted (root :: subs) ++ name) = (root :: subs) ++ [name] := by
    rw [← joinWith_dotted]
    refine splitOn_joinWith '.' _ (by simp) ?_
    intro p hp
    rcases List.mem_append.1 hp with hp | hp
    · exact (namespaceName_no (hns p hp)).1
    · rw [List.mem_singleton.1 hp]; exact (shortName_no hname).1
  have href : referredName dirs r (dotted (root :: subs) ++ name) = .ok (dotted (root :: subs) ++ name) := by
    unfold referredName
    rw [if_pos]
    have := (typeName_plain (s := dotted (root :: subs) ++ name) ⟨hlen, root :: subs, name, by simp, hns, hname, rfl⟩).2.1
    simpa using this
  have hex : ∃ fn, locate fs dirs r (dotted (root :: subs) ++ name) = .ok fn := by
    simp only [locate, href, hsp, List.dropLast_concat, bind, Except.bind]
    split
    · exact ⟨_, rfl⟩
    · rename_i hn
      rw [List.find?_eq_none] at hn
      refine absurd ?_ (hn (pathOf dir subs (baseName dtid name version)) ?_)
      · rw [hf, hinfo]
        simp
      · simp only [List.mem_flatMap, List.mem_map, List.mem_filter, decide_eq_true_eq]
        refine ⟨pathJoin dir subs, ⟨dir, ⟨hdir, ?_⟩, rfl⟩, baseName dtid name version, ?_, pathJoin_pathOf _ _ _⟩
        · exact hroot
        · rw [hl]; exact hb
  obtain ⟨fn, hfn⟩ := hex
  obtain ⟨full, j, h1, h2, h3, h4, -⟩ := locate_found fs dirs r _ fn hfn
  rw [href] at h1
  injection h1 with h1
  subst h1
  exact ⟨fn, j, hfn, h2, h3, fun hu => hu fn j h4 h2 h3⟩

/-- Hypotheses of `C84_found_partial` in the example file system. -/
example : exampleFS.listdir (pathJoin (lit "/d/ns") []) = some [lit "A.uavcan", lit "sub"] ∧
    baseName none (lit "A") none ∈ [lit "A.uavcan", lit "sub"] ∧
    exampleFS.isfile (pathOf (lit "/d/ns") [] (baseName none (lit "A") none)) = true ∧
    (splitOn '/' (lit "/d/ns")).getLastD [] = lit "ns" ∧ dotted [lit "ns"] ++ lit "A" = lit "ns.A" := by decide +kernel

end Parser
end Dronecan
