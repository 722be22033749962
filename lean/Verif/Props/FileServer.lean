import Verif.Model.FileServer
import Verif.Proofs.Dict

/-!
# The file server (C44, C45, C66)
-/

namespace Dronecan
namespace Files
open PyM

/-! ## C44 -/

/-- The server has the file `path` with content `c`: the path resolves to a file that can be read. -/
def Serves (fs : FS) (s : Server) (path : Str) (c : List Byte) : Prop :=
  ∃ p, (resolvePath fs path s).1 = .ok p ∧ fs.content p = some c

/-- A client: it reads at growing offsets until it gets less than a full chunk. It gives up after `tries` requests. -/
def fetch (fs : FS) (path : Str) : Nat → Server → Nat → Option (List Byte)
  | 0, _, _ => none
  | tries + 1, s, off =>
    match read fs (some path) off s with
    | (.ok (.ok d), s') =>
      if d.length < s.maxSize then some d else (fetch fs path tries s' (off + s.maxSize)).map (d ++ ·)
    | _ => none

theorem resolvePath_same (fs fs' : FS) (path path' : Str) (s : Server) :
    (resolvePath fs path (resolvePath fs' path' s).2).1 = (resolvePath fs path s).1 ∧
    (resolvePath fs' path' s).2.maxSize = s.maxSize := by
  have h : (resolvePath fs' path' s).2.pathMap = s.pathMap ∧ (resolvePath fs' path' s).2.lookup = s.lookup ∧
      (resolvePath fs' path' s).2.maxSize = s.maxSize := by
    unfold resolvePath
    split
    · exact ⟨rfl, rfl, rfl⟩
    · split <;> exact ⟨rfl, rfl, rfl⟩
  refine ⟨?_, h.2.2⟩
  generalize (resolvePath fs' path' s).2 = s' at h
  unfold resolvePath
  rw [h.1, h.2.1]
  split
  · rfl
  · split <;> rfl

theorem openFile_ok {fs : FS} {s : Server} {path : Str} {c : List Byte} (h : Serves fs s path c) :
    openFile fs path s = (.ok c, (resolvePath fs path s).2) := by
  obtain ⟨p, h1, h2⟩ := h
  simp only [openFile, bind_run]
  cases hr : resolvePath fs path s with
  | mk r s' =>
    rw [hr] at h1
    simp only at h1
    subst h1
    simp only [h2, pure_run]

/-- A read returns the bytes at the offset, at most the capacity of the response. -/
theorem C44_read (fs : FS) (s : Server) (path : Str) (c : List Byte) (h : Serves fs s path c) (off : Nat) :
    ∃ d s', read fs (some path) off s = (.ok (.ok d), s') ∧ d = (c.drop off).take s.maxSize ∧ d.length ≤ s.maxSize ∧
      Serves fs s' path c ∧ s'.maxSize = s.maxSize := by
  refine ⟨(c.drop off).take s.maxSize, (resolvePath fs path s).2, ?_, rfl, ?_, ?_, ?_⟩
  · simp only [read, answer, bind_run, openFile_ok h, get_run, pure_run, (resolvePath_same fs fs path path s).2]
  · rw [List.length_take]; exact Nat.min_le_left _ _
  · obtain ⟨p, h1, h2⟩ := h
    exact ⟨p, (resolvePath_same fs fs path path s).1.trans h1, h2⟩
  · exact (resolvePath_same fs fs path path s).2

theorem fetch_from (fs : FS) (path : Str) (c : List Byte) (m : Nat) (hm : 0 < m) (tries : Nat) : ∀ (s : Server) (off : Nat),
    s.maxSize = m → Serves fs s path c → off ≤ c.length → c.length - off < m * tries →
    fetch fs path tries s off = some (c.drop off) := by
  induction tries with
  | zero => intro s off _ _ _ h; omega
  | succ tries ih =>
    intro s off hs hserve hoff hlen
    obtain ⟨d, s', h1, h2, h3, h4, h5⟩ := C44_read fs s path c hserve off
    simp only [fetch, h1]
    have hl : d.length = min m (c.length - off) := by rw [h2, hs, List.length_take, List.length_drop]
    have hd : d = (c.drop off).take m := by rw [h2, hs]
    rw [hs]
    split
    · rename_i hlt
      rw [hd, List.take_of_length_le]
      rw [List.length_drop]
      omega
    · rename_i hge
      have hmt : m * (tries + 1) = m * tries + m := Nat.mul_succ _ _
      rw [ih s' (off + m) (h5.trans hs) h4 (by omega) (by omega), Option.map_some, hd]
      congr 1
      rw [← List.drop_drop]
      exact List.take_append_drop _ _

/-- A client that reads chunk after chunk gets exactly the content of the file. -/
theorem C44_fetch (fs : FS) (s : Server) (path : Str) (c : List Byte) (h : Serves fs s path c) (hm : 0 < s.maxSize)
    (tries : Nat) (ht : c.length < s.maxSize * tries) : fetch fs path tries s 0 = some c :=
  fetch_from fs path c s.maxSize hm tries s 0 rfl h (Nat.zero_le _) (by omega)

/-- `GetInfo` reports the length of the file. -/
theorem C44_info (fs : FS) (s : Server) (path : Str) (c : List Byte) (h : Serves fs s path c) :
    (getInfo fs (some path) s).1 = .ok (.ok c.length) := by
  simp only [getInfo, answer, bind_run, openFile_ok h, pure_run]

/-- Requests for anything else are answered with an error. -/
theorem C44_missing (fs : FS) (s : Server) (path : Str) (h : ¬ ∃ c, Serves fs s path c) (off : Nat) :
    (read fs (some path) off s).1 = .ok .unknownError ∧ (getInfo fs (some path) s).1 = .ok .unknownError := by
  have ho : ∃ e s', openFile fs path s = (.error e, s') := by
    simp only [openFile, bind_run]
    cases hr : resolvePath fs path s with
    | mk r s' =>
      cases r with
      | error e => exact ⟨e, s', rfl⟩
      | ok p =>
        cases hc : fs.content p with
        | none => simp only [hc]; exact ⟨_, _, rfl⟩
        | some c => exact absurd ⟨c, p, by rw [hr], hc⟩ h
  obtain ⟨e, s', ho⟩ := ho
  simp only [read, getInfo, answer, bind_run, ho, and_self]

/-- A file system with one file of 600 bytes. -/
def oneFile : FS where
  isfile p := p == "/srv/fw.bin".toList
  content p := if p = "/srv/fw.bin".toList then some (List.replicate 600 7) else none
  cwd := "/".toList

example : Serves oneFile { lookup := ["/srv".toList] } "fw.bin".toList (List.replicate 600 7) :=
  ⟨"/srv/fw.bin".toList, by decide +kernel, by decide +kernel⟩
example : fetch oneFile "fw.bin".toList 3 { lookup := ["/srv".toList] } 0 = some (List.replicate 600 7) := by
  decide +kernel

/-! ## C45 -/

/-- Walking along a path: to the parent (of the root: the root), nowhere, or down. The directory reached is listed from the
root. -/
def walk (at_ : List Str) : List Str → List Str
  | [] => at_
  | comp :: rest =>
    walk (if comp = ['.', '.'] then at_.dropLast else if comp = [] ∨ comp = ['.'] then at_ else at_ ++ [comp]) rest

/-- The place in the directory tree that an absolute path names (without symbolic links). -/
def location (p : Str) : List Str := walk [] (splitSlash p)

/-- `q` is `p` or lies below `p`. -/
def Inside (p q : Str) : Prop := location p <+: location q

/-- C45 in full. -/
def C45_statement : Prop :=
  ∀ (fs : FS) (s : Server) (path out : Str), isAbs fs.cwd = true → (resolvePath fs path s).1 = .ok out →
    s.pathMap.get? path = some out ∨ ∃ p ∈ s.lookup, Inside (abspath fs.cwd p) out

/-- A file system that has one file. -/
def only (p : Str) : FS where
  isfile q := q == p
  content q := if q = p then some [] else none
  cwd := ['/']

/-- It is false: an absolute path is served wherever it points. -/
theorem C45_counterexample : ¬ C45_statement := by
  intro h
  have := h (only "/etc/passwd".toList) { lookup := ["/srv".toList] } "/etc/passwd".toList "/etc/passwd".toList
    (by decide +kernel) (by decide +kernel)
  rcases this with this | ⟨p, hp, hin⟩
  · cases this
  · rw [List.mem_singleton] at hp
    subst hp
    have h1 : location (abspath (only "/etc/passwd".toList).cwd "/srv".toList) = ["srv".toList] := by decide +kernel
    have h2 : location "/etc/passwd".toList = ["etc".toList, "passwd".toList] := by decide +kernel
    rw [Inside, h1, h2] at hin
    exact absurd hin (by decide +kernel)

/-- So is a path with enough `..`. -/
theorem C45_counterexample_dots : ¬ C45_statement := by
  intro h
  have := h (only "/srv/../etc/passwd".toList) { lookup := ["/srv".toList] } "a/../../etc/passwd".toList
    "/srv/../etc/passwd".toList (by decide +kernel) (by decide +kernel)
  rcases this with this | ⟨p, hp, hin⟩
  · cases this
  · rw [List.mem_singleton] at hp
    subst hp
    have h1 : location (abspath (only "/srv/../etc/passwd".toList).cwd "/srv".toList) = ["srv".toList] := by
      decide +kernel
    have h2 : location "/srv/../etc/passwd".toList = ["etc".toList, "passwd".toList] := by decide +kernel
    rw [Inside, h1, h2] at hin
    exact absurd hin (by decide +kernel)

/-- Does the path, followed from a directory at the given depth below the starting point, climb above the starting point? -/
def climbs (depth : Nat) : List Str → Bool
  | [] => false
  | comp :: rest =>
    if comp = ['.', '.'] then (match depth with
      | 0 => true
      | d + 1 => climbs d rest)
    else if comp = [] ∨ comp = ['.'] then climbs depth rest
    else climbs (depth + 1) rest

/-- A request that is relative and never climbs above its starting point. -/
def Tame (path : Str) : Prop := isAbs path = false ∧ climbs 0 (splitSlash path) = false

/-! ### Splitting and joining -/

theorem splitSlash_ne_nil (p : Str) : splitSlash p ≠ [] := by
  cases p with
  | nil => simp [splitSlash]
  | cons c cs =>
    simp only [splitSlash]
    split
    · simp
    · split <;> simp

theorem splitSlash_append (a b : Str) : splitSlash (a ++ '/' :: b) = splitSlash a ++ splitSlash b := by
  induction a with
  | nil => simp [splitSlash]
  | cons c a ih =>
    simp only [List.cons_append, splitSlash]
    split
    · rw [ih]; rfl
    · rw [ih]
      cases h : splitSlash a with
      | nil => exact absurd h (splitSlash_ne_nil a)
      | cons x xs => rfl

theorem splitSlash_free (p : Str) (h : '/' ∉ p) : splitSlash p = [p] := by
  induction p with
  | nil => rfl
  | cons c p ih =>
    simp only [List.mem_cons, not_or] at h
    simp only [splitSlash, ih h.2, if_neg (Ne.symm h.1)]

theorem splitSlash_mem_free (p : Str) : ∀ c ∈ splitSlash p, '/' ∉ c ∧ c.length ≤ p.length := by
  induction p with
  | nil => intro c hc; simp [splitSlash] at hc; simp [hc]
  | cons a p ih =>
    intro c hc
    simp only [splitSlash] at hc
    split at hc
    · rcases List.mem_cons.1 hc with rfl | hc
      · simp
      · have := ih c hc; exact ⟨this.1, by simp only [List.length_cons]; omega⟩
    · rename_i ha
      cases h : splitSlash p with
      | nil => exact absurd h (splitSlash_ne_nil p)
      | cons x xs =>
        rw [h] at hc ih
        simp only at hc
        rcases List.mem_cons.1 hc with rfl | hc
        · have := ih x List.mem_cons_self
          refine ⟨?_, by simp only [List.length_cons]; omega⟩
          simp only [List.mem_cons, not_or]
          exact ⟨Ne.symm ha, this.1⟩
        · have := ih c (List.mem_cons_of_mem _ hc); exact ⟨this.1, by simp only [List.length_cons]; omega⟩

theorem splitSlash_joinSlash (comps : List Str) (hne : comps ≠ []) (h : ∀ c ∈ comps, '/' ∉ c) :
    splitSlash (joinSlash comps) = comps := by
  induction comps with
  | nil => exact absurd rfl hne
  | cons a rest ih =>
    cases rest with
    | nil => exact splitSlash_free a (h a List.mem_cons_self)
    | cons b rest =>
      simp only [joinSlash]
      rw [splitSlash_append, splitSlash_free a (h a List.mem_cons_self),
        ih (by simp) (fun c hc => h c (List.mem_cons_of_mem _ hc))]
      rfl

theorem walk_append (s : List Str) (a b : List Str) : walk s (a ++ b) = walk (walk s a) b := by
  induction a generalizing s with
  | nil => rfl
  | cons c a ih => exact ih _

theorem walk_tame (comps : List Str) (h : ['.', '.'] ∉ comps) (s : List Str) : s <+: walk s comps := by
  induction comps generalizing s with
  | nil => exact List.prefix_refl _
  | cons c comps ih =>
    simp only [List.mem_cons, not_or] at h
    simp only [walk, if_neg (Ne.symm h.1)]
    split
    · exact ih h.2 s
    · exact (List.prefix_append _ _).trans (ih h.2 _)

/-! ### The normalised request -/

/-- The components of the normalised path, last first. -/
def comps (p : Str) : List Str := (splitSlash p).foldl (normStep (isAbs p)) []

theorem normStep_mem (abs : Bool) (new : List Str) (comp c : Str) (h : c ∈ normStep abs new comp) :
    c ∈ new ∨ (c = comp ∧ c ≠ [] ∧ c ≠ ['.']) := by
  unfold normStep at h
  split at h
  · exact .inl h
  · rename_i hn
    split at h
    · rcases List.mem_cons.1 h with rfl | h
      · exact .inr ⟨rfl, fun e => hn (.inl e), fun e => hn (.inr e)⟩
      · exact .inl h
    · exact .inl (List.mem_of_mem_tail h)

theorem foldl_normStep_mem (abs : Bool) (cs : List Str) : ∀ new c, c ∈ cs.foldl (normStep abs) new →
    c ∈ new ∨ (c ∈ cs ∧ c ≠ [] ∧ c ≠ ['.']) := by
  induction cs with
  | nil => intro new c h; exact .inl h
  | cons x cs ih =>
    intro new c h
    rcases ih _ c h with h | ⟨h1, h2⟩
    · rcases normStep_mem abs new x c h with h | ⟨h, h2⟩
      · exact .inl h
      · exact .inr ⟨h ▸ List.mem_cons_self, h2⟩
    · exact .inr ⟨List.mem_cons_of_mem _ h1, h2⟩

theorem mem_comps {p c : Str} (h : c ∈ comps p) : '/' ∉ c ∧ c ≠ [] ∧ c ≠ ['.'] ∧ c.length ≤ p.length := by
  rcases foldl_normStep_mem _ _ _ _ h with h | ⟨h1, h2, h3⟩
  · cases h
  · have := splitSlash_mem_free p c h1
    exact ⟨this.1, h2, h3, this.2⟩

theorem isAbs_joinSlash (cs : List Str) (h : ∀ c ∈ cs, '/' ∉ c ∧ c ≠ []) : isAbs (joinSlash cs) = false := by
  cases cs with
  | nil => rfl
  | cons a rest =>
    have ha := h a List.mem_cons_self
    cases a with
    | nil => exact absurd rfl ha.2
    | cons x a =>
      have hx : x ≠ '/' := fun e => ha.1 (e ▸ List.mem_cons_self)
      cases rest <;> simp [joinSlash, isAbs, hx]

theorem joinSlash_ne_nil (cs : List Str) (h : ∀ c ∈ cs, c ≠ []) (hn : cs ≠ []) : joinSlash cs ≠ [] := by
  cases cs with
  | nil => exact absurd rfl hn
  | cons a rest =>
    have ha := h a List.mem_cons_self
    cases rest with
    | nil => exact ha
    | cons b rest => simp [joinSlash]

/-- What `normpath` gives for a relative path. -/
theorem normpath_rel (p : Str) (h : isAbs p = false) :
    (comps p = [] ∧ normpath p = ['.']) ∨
    (comps p ≠ [] ∧ normpath p = joinSlash (comps p).reverse ∧ splitSlash (normpath p) = (comps p).reverse ∧
      isAbs (normpath p) = false) := by
  have hin : initialSlashes p = 0 := by simp [initialSlashes, h]
  have hm : ∀ c ∈ (comps p).reverse, '/' ∉ c ∧ c ≠ [] := fun c hc => by
    have := mem_comps (List.mem_reverse.1 hc); exact ⟨this.1, this.2.1⟩
  by_cases hc : comps p = []
  · refine .inl ⟨hc, ?_⟩
    unfold normpath
    split
    · rfl
    · have : (splitSlash p).foldl (normStep (isAbs p)) [] = [] := hc
      simp only [hin, this, List.reverse_nil, joinSlash, List.replicate_zero, List.append_nil, if_true]
  · right
    have hne : joinSlash (comps p).reverse ≠ [] := joinSlash_ne_nil _ (fun c hc => (hm c hc).2) (by simpa using hc)
    have hnp : normpath p = joinSlash (comps p).reverse := by
      unfold normpath
      split
      · rename_i hp
        subst hp
        exact absurd (by decide) hc
      · simp only [hin, List.replicate_zero, List.nil_append]
        exact if_neg hne
    refine ⟨hc, hnp, ?_, ?_⟩
    · rw [hnp]; exact splitSlash_joinSlash _ (by simpa using hc) (fun c hc => (hm c hc).1)
    · rw [hnp]; exact isAbs_joinSlash _ hm

/-- A path that does not climb is normalised without any `..`. -/
theorem foldl_normStep_tame (cs : List Str) : ∀ new : List Str, ['.', '.'] ∉ new → climbs new.length cs = false →
    ['.', '.'] ∉ cs.foldl (normStep false) new := by
  induction cs with
  | nil => intro new h _; exact h
  | cons c cs ih =>
    intro new hn hc
    simp only [List.foldl_cons]
    by_cases hdd : c = ['.', '.']
    · subst hdd
      cases new with
      | nil => simp [climbs] at hc
      | cons a new =>
        simp only [List.mem_cons, not_or] at hn
        have hstep : normStep false (a :: new) ['.', '.'] = new := by
          have : a ≠ ['.', '.'] := Ne.symm hn.1
          simp [normStep, this]
        rw [hstep]
        refine ih new hn.2 ?_
        simpa [climbs] using hc
    · by_cases hsk : c = [] ∨ c = ['.']
      · have hstep : normStep false new c = new := by unfold normStep; rw [if_pos hsk]
        rw [hstep]
        refine ih new hn ?_
        simp only [climbs, if_neg hdd, if_pos hsk] at hc
        exact hc
      · have hstep : normStep false new c = c :: new := by
          unfold normStep; rw [if_neg hsk, if_pos (.inl hdd)]
        rw [hstep]
        refine ih (c :: new) ?_ ?_
        · simp only [List.mem_cons, not_or]; exact ⟨Ne.symm hdd, hn⟩
        · simp only [climbs, if_neg hdd, if_neg hsk] at hc
          exact hc

/-- The normalised form of a tame request is relative and has no `..`. -/
theorem normpath_tame (p : Str) (h : Tame p) : isAbs (normpath p) = false ∧ ['.', '.'] ∉ splitSlash (normpath p) := by
  rcases normpath_rel p h.1 with ⟨-, h1⟩ | ⟨-, -, h1, h2⟩
  · rw [h1]; exact ⟨by decide, by decide⟩
  · refine ⟨h2, ?_⟩
    rw [h1, List.mem_reverse]
    have := foldl_normStep_tame (splitSlash p) [] (by simp) h.2
    unfold comps
    rw [h.1]
    exact this

/-- Joining a relative path: where it leads. -/
theorem location_join (p r : Str) (hr : isAbs r = false) : location (join p r) = walk (location p) (splitSlash r) := by
  unfold join
  rw [hr]
  simp only [Bool.false_eq_true, if_false]
  split
  · rename_i hp
    rcases hp with rfl | hp
    · rfl
    · obtain ⟨a, ha⟩ := List.getLast?_eq_some_iff.1 hp
      subst ha
      rw [List.append_assoc]
      unfold location
      rw [List.cons_append, List.nil_append, splitSlash_append, walk_append, splitSlash_append, walk_append]
      rfl
  · unfold location
    rw [splitSlash_append, walk_append]

theorem tryResolve_some (fs : FS) (lookup : List Str) (rel out : Str) (h : tryResolve fs lookup rel = some out) :
    ∃ p ∈ lookup, out = abspath fs.cwd p ∨ out = join (abspath fs.cwd p) (normpath rel) := by
  induction lookup with
  | nil => cases h
  | cons p rest ih =>
    simp only [tryResolve] at h
    split at h
    · exact ⟨p, List.mem_cons_self, .inl (by injection h with h; exact h.symm)⟩
    · split at h
      · exact ⟨p, List.mem_cons_self, .inr (by injection h with h; exact h.symm)⟩
      · obtain ⟨q, hq, ho⟩ := ih h
        exact ⟨q, List.mem_cons_of_mem _ hq, ho⟩

theorem resolvePath_ok {fs : FS} {s : Server} {path out : Str} (h : (resolvePath fs path s).1 = .ok out) :
    s.pathMap.get? path = some out ∨ (s.pathMap.get? path = none ∧ tryResolve fs s.lookup path = some out) := by
  unfold resolvePath at h
  split at h
  · rename_i p hp; left; rw [hp]; injection h with h; rw [h]
  · rename_i hp
    split at h
    · cases h
    · cases h
    · rename_i o _ ho; right; injection h with h; exact ⟨hp, h ▸ ho⟩

/-- For requests that are relative and do not climb, whatever files exist, the path that is opened is a lookup path, or in
one, or comes from the path map. (Missing from the full statement: the other requests, see `C45_exact`.) -/
theorem C45_tame_partial (fs : FS) (s : Server) (path out : Str) (ht : Tame path)
    (h : (resolvePath fs path s).1 = .ok out) :
    s.pathMap.get? path = some out ∨ ∃ p ∈ s.lookup, Inside (abspath fs.cwd p) out := by
  rcases resolvePath_ok h with h | ⟨-, h⟩
  · exact .inl h
  · right
    obtain ⟨p, hp, ho⟩ := tryResolve_some fs s.lookup path out h
    refine ⟨p, hp, ?_⟩
    rcases ho with rfl | rfl
    · exact List.prefix_refl _
    · unfold Inside
      rw [location_join _ _ (normpath_tame path ht).1]
      exact walk_tame _ (normpath_tame path ht).2 _

/-! ### The other requests -/

theorem walk_mem (cs : List Str) : ∀ s c, c ∈ walk s cs → c ∈ s ∨ c ∈ cs := by
  induction cs with
  | nil => intro s c h; exact .inl h
  | cons x cs ih =>
    intro s c h
    simp only [walk] at h
    rcases ih _ c h with h | h
    · split at h
      · exact .inl ((List.dropLast_subset _) h)
      · split at h
        · exact .inl h
        · rcases List.mem_append.1 h with h | h
          · exact .inl h
          · rw [List.mem_singleton] at h; exact .inr (h ▸ List.mem_cons_self)
    · exact .inr (List.mem_cons_of_mem _ h)

/-- A directory name longer than the request. -/
def longName (n : Nat) : Str := List.replicate (n + 3) 'x'

theorem abspath_long (cwd : Str) (n : Nat) : abspath cwd ('/' :: longName n) = '/' :: longName n := by
  have hfree : '/' ∉ longName n := by
    intro h; have := List.eq_of_mem_replicate h; exact absurd this (by decide)
  have hl : (longName n).length = n + 3 := List.length_replicate
  have h1 : longName n ≠ [] := fun h => by rw [h] at hl; simp at hl
  have h2 : longName n ≠ ['.'] := fun h => by rw [h] at hl; simp at hl
  have h3 : longName n ≠ ['.', '.'] := fun h => by rw [h] at hl; simp at hl
  have hsp : splitSlash ('/' :: longName n) = [[], longName n] := by
    simp [splitSlash, splitSlash_free _ hfree]
  have hin : initialSlashes ('/' :: longName n) = 1 := by
    have : longName n = 'x' :: List.replicate (n + 2) 'x' := rfl
    rw [this]
    simp [initialSlashes, isAbs]
  have habs : isAbs ('/' :: longName n) = true := rfl
  unfold abspath
  rw [if_pos habs]
  unfold normpath
  rw [if_neg (by simp), hin, hsp, habs]
  simp [normStep, h1, h2, h3, joinSlash]

theorem location_long (n : Nat) : location ('/' :: longName n) = [longName n] := by
  have hfree : '/' ∉ longName n := by
    intro h; have := List.eq_of_mem_replicate h; exact absurd this (by decide)
  have hl : (longName n).length = n + 3 := List.length_replicate
  have h1 : longName n ≠ [] := fun h => by rw [h] at hl; simp at hl
  have h2 : longName n ≠ ['.'] := fun h => by rw [h] at hl; simp at hl
  have h3 : longName n ≠ ['.', '.'] := fun h => by rw [h] at hl; simp at hl
  have hsp : splitSlash ('/' :: longName n) = [[], longName n] := by
    simp [splitSlash, splitSlash_free _ hfree]
  simp [location, hsp, walk, h1, h2, h3]

/-- A path that climbs is normalised to one that begins with `..`. -/
theorem foldl_normStep_wild (cs : List Str) : ∀ new : List Str,
    (new.getLast? = some ['.', '.'] ∨ (['.', '.'] ∉ new ∧ climbs new.length cs = true)) →
    (cs.foldl (normStep false) new).getLast? = some ['.', '.'] := by
  induction cs with
  | nil =>
    intro new h
    rcases h with h | ⟨-, h⟩
    · exact h
    · simp [climbs] at h
  | cons c cs ih =>
    intro new h
    simp only [List.foldl_cons]
    apply ih
    rcases h with h | ⟨hn, h⟩
    · left
      unfold normStep
      split
      · exact h
      · split
        · rw [List.getLast?_cons, h]; rfl
        · rename_i hk
          simp only [not_or] at hk
          cases new with
          | nil => cases h
          | cons a new =>
            cases new with
            | nil => exact absurd h hk.2.2
            | cons b new => rw [List.getLast?_cons_cons] at h; exact h
    · by_cases hdd : c = ['.', '.']
      · subst hdd
        cases new with
        | nil => left; simp [normStep]
        | cons a new =>
          simp only [List.mem_cons, not_or] at hn
          have hstep : normStep false (a :: new) ['.', '.'] = new := by
            have : a ≠ ['.', '.'] := Ne.symm hn.1
            simp [normStep, this]
          rw [hstep]
          exact .inr ⟨hn.2, by simpa [climbs] using h⟩
      · by_cases hsk : c = [] ∨ c = ['.']
        · have hstep : normStep false new c = new := by unfold normStep; rw [if_pos hsk]
          rw [hstep]
          simp only [climbs, if_neg hdd, if_pos hsk] at h
          exact .inr ⟨hn, h⟩
        · have hstep : normStep false new c = c :: new := by
            unfold normStep; rw [if_neg hsk, if_pos (.inl hdd)]
          rw [hstep]
          simp only [climbs, if_neg hdd, if_neg hsk] at h
          refine .inr ⟨?_, h⟩
          simp only [List.mem_cons, not_or]
          exact ⟨Ne.symm hdd, hn⟩

theorem normpath_abs (p : Str) (h : isAbs p = true) : isAbs (normpath p) = true := by
  have hin : ∃ k, initialSlashes p = k + 1 := by
    unfold initialSlashes
    rw [h]
    simp only [if_true]
    split
    · exact ⟨1, rfl⟩
    · exact ⟨0, rfl⟩
  obtain ⟨k, hk⟩ := hin
  unfold normpath
  split
  · rename_i hp; subst hp; cases h
  · rw [hk]
    simp [List.replicate_succ, isAbs]

theorem splitSlash_normpath_short (p : Str) : ∀ c ∈ splitSlash (normpath p), c.length ≤ max p.length 1 := by
  intro c hc
  have hgen : ∀ (k : Nat) (cs : List Str), (∀ c ∈ cs, '/' ∉ c ∧ c.length ≤ p.length) →
      ∀ c ∈ splitSlash (List.replicate k '/' ++ joinSlash cs), c.length ≤ p.length := by
    intro k cs hcs
    induction k with
    | zero =>
      intro c hc
      rw [List.replicate_zero, List.nil_append] at hc
      by_cases hn : cs = []
      · subst hn; simp [joinSlash, splitSlash] at hc; simp [hc]
      · rw [splitSlash_joinSlash cs hn (fun c hc => (hcs c hc).1)] at hc
        exact (hcs c hc).2
    | succ k ih =>
      intro c hc
      have : splitSlash (List.replicate (k + 1) '/' ++ joinSlash cs) =
          [] :: splitSlash (List.replicate k '/' ++ joinSlash cs) := by
        simp [List.replicate_succ, splitSlash]
      rw [this] at hc
      rcases List.mem_cons.1 hc with rfl | hc
      · simp
      · exact ih c hc
  have hdot : ∀ c ∈ splitSlash ['.'], c.length ≤ max p.length 1 := by
    intro c hc
    have : splitSlash ['.'] = [['.']] := by decide
    rw [this, List.mem_singleton] at hc
    subst hc
    simp only [List.length_singleton]
    omega
  unfold normpath at hc
  split at hc
  · exact hdot c hc
  · dsimp only at hc
    split at hc
    · exact hdot c hc
    · have := hgen _ _ (fun c hc => by
        have := mem_comps (p := p) (List.mem_reverse.1 hc); exact ⟨this.1, this.2.2.2⟩) c hc
      omega

/-- The requests of `C45_tame_partial` are exactly the safe ones: for every other request there are a lookup path and a
file outside of it that is opened. -/
theorem C45_exact (path : Str) :
    Tame path ↔ ∀ (fs : FS) (s : Server) (out : Str), isAbs fs.cwd = true → (resolvePath fs path s).1 = .ok out →
      s.pathMap.get? path = some out ∨ ∃ p ∈ s.lookup, Inside (abspath fs.cwd p) out := by
  constructor
  · intro ht fs s out _ h; exact C45_tame_partial fs s path out ht h
  · intro hall
    apply Classical.byContradiction
    intro hnt
    -- the lookup path and the file
    let dir : Str := '/' :: longName path.length
    let out := join dir (normpath path)
    have hlong : ∀ c ∈ splitSlash (normpath path), c ≠ longName path.length := by
      intro c hc he
      have := splitSlash_normpath_short path c hc
      rw [he] at this
      have hl : (longName path.length).length = path.length + 3 := List.length_replicate
      omega
    have hloc : location dir = [longName path.length] := location_long _
    -- where the file is
    have hnot : ¬ Inside dir out ∧ dir ≠ out := by
      suffices h : longName path.length ∉ location out by
        refine ⟨fun hi => h (hi.subset ?_), fun he => h (he ▸ ?_)⟩
        · rw [hloc]; exact List.mem_singleton.2 rfl
        · rw [hloc]; exact List.mem_singleton.2 rfl
      by_cases hab : isAbs path = true
      · have hab' := normpath_abs path hab
        have : out = normpath path := by show join dir _ = _; unfold join; rw [if_pos hab']
        rw [this]
        intro hm
        rcases walk_mem _ _ _ hm with hm | hm
        · cases hm
        · exact hlong _ hm rfl
      · have hab : isAbs path = false := by simpa using hab
        have hcl : climbs 0 (splitSlash path) = true := by
          cases hc : climbs 0 (splitSlash path) with
          | true => rfl
          | false => exact absurd ⟨hab, hc⟩ hnt
        have hlast : (comps path).getLast? = some ['.', '.'] := by
          unfold comps
          rw [hab]
          exact foldl_normStep_wild _ [] (.inr ⟨by simp, hcl⟩)
        rcases normpath_rel path hab with ⟨h0, -⟩ | ⟨-, -, hsp, hr⟩
        · rw [h0] at hlast; cases hlast
        · show longName path.length ∉ location (join dir (normpath path))
          rw [location_join _ _ hr, hloc]
          obtain ⟨pre, hpre⟩ := List.getLast?_eq_some_iff.1 hlast
          rw [hsp, hpre, List.reverse_append] at hlong ⊢
          simp only [List.reverse_singleton, List.singleton_append, walk, if_true]
          intro hm
          rcases walk_mem _ _ _ hm with hm | hm
          · cases hm
          · exact hlong _ (List.mem_cons_of_mem _ hm) rfl
    -- the server opens it
    have habs : ∀ cwd, abspath cwd dir = dir := fun cwd => abspath_long cwd _
    have hne : out ≠ [] := by
      show join dir (normpath path) ≠ []
      unfold join
      split
      · rename_i h; intro he; rw [he] at h; cases h
      · split <;> simp [dir]
    have hres : tryResolve (only out) [dir] path = some out := by
      simp only [tryResolve, habs]
      have hf : (only out).isfile (join dir (normpath path)) = true := by show ((out == out) = true); simp
      rw [if_neg, if_pos hf]
      · rintro ⟨-, h⟩
        have : (dir == out) = true := h
        simp only [beq_iff_eq] at this
        exact hnot.2 this
    have hok : (resolvePath (only out) path { lookup := [dir] }).1 = .ok out := by
      unfold resolvePath
      simp only [Dict.get?, hres]
    rcases hall (only out) { lookup := [dir] } out rfl hok with h | ⟨p, hp, h⟩
    · cases h
    · rw [List.mem_singleton] at hp
      subst hp
      rw [habs] at h
      exact hnot.1 h

example : Tame "a/../b//./c.bin".toList := by constructor <;> decide +kernel
example : ¬ Tame "a/../../b".toList := by intro h; exact absurd h.2 (by decide +kernel)
example : (resolvePath oneFile "x/../fw.bin".toList { lookup := ["/nowhere".toList, "/srv/".toList] }).1 =
    .ok "/srv/fw.bin".toList := by decide +kernel

/-! ## C66: the hit counters -/

/-- A request. -/
inductive Op
  | info (fs : FS) (path : Option Str)
  | read (fs : FS) (path : Option Str) (offset : Nat)

def step (s : Server) : Op → Server
  | .info fs path => (getInfo fs path s).2
  | .read fs path offset => (read fs path offset s).2

def run (s : Server) (ops : List Op) : Server := ops.foldl step s

/-- The file found by searching the lookup paths for the request, if it is not in the path map. -/
def found (s : Server) (fs : FS) : Option Str → Option Str
  | none => none
  | some path => if (s.pathMap.get? path).isSome then none else (tryResolve fs s.lookup path).filter (· ≠ [])

def Op.found (s : Server) : Op → Option Str
  | .info fs path => Files.found s fs path
  | .read fs path _ => Files.found s fs path

theorem resolvePath_hits (fs : FS) (path : Str) (s : Server) :
    (resolvePath fs path s).2.lookup = s.lookup ∧ (resolvePath fs path s).2.pathMap = s.pathMap ∧
    ∀ p, ((resolvePath fs path s).2.hits.get? p).getD 0 =
      (s.hits.get? p).getD 0 + if found s fs (some path) = some p then 1 else 0 := by
  unfold resolvePath found
  cases hm : s.pathMap.get? path with
  | some x => simp [hm]
  | none =>
    cases hr : tryResolve fs s.lookup path with
    | none => simp [hm, hr, Option.filter]
    | some out =>
      cases out with
      | nil => simp [hm, hr, Option.filter]
      | cons a b =>
        refine ⟨rfl, rfl, fun p => ?_⟩
        simp only [hm, hr, Option.isSome_none, Bool.false_eq_true, if_false, Option.filter]
        by_cases hp : a :: b = p
        · subst hp; simp [Dict.get?_set_self]
        · rw [Dict.get?_set_ne _ _ hp]
          simp [hp]

theorem answer_snd {α : Type} (m : PyM Server α) (s : Server) : (answer m s).2 = (m s).2 := by
  unfold answer
  cases m s with
  | mk r s' => cases r <;> rfl

theorem openFile_snd (fs : FS) (path : Str) (s : Server) : (openFile fs path s).2 = (resolvePath fs path s).2 := by
  simp only [openFile, bind_run]
  cases resolvePath fs path s with
  | mk r s' =>
    cases r with
    | error e => rfl
    | ok p => cases hc : fs.content p <;> simp [hc]

theorem step_hits (s : Server) (op : Op) : (step s op).lookup = s.lookup ∧ (step s op).pathMap = s.pathMap ∧
    ∀ p, ((step s op).hits.get? p).getD 0 = (s.hits.get? p).getD 0 + if op.found s = some p then 1 else 0 := by
  have key : ∀ (fs : FS) (path : Str) (α : Type) (f : List Byte → PyM Server α), (∀ c s, (f c s).2 = s) →
      (answer (openFile fs path >>- f) s).2 = (resolvePath fs path s).2 := by
    intro fs path α f hf
    rw [answer_snd]
    simp only [bind_run, ← openFile_snd]
    cases openFile fs path s with
    | mk r s' =>
      cases r with
      | error e => rfl
      | ok c => exact hf c s'
  cases op with
  | info fs path =>
    cases path with
    | none => simp [step, getInfo, Op.found, found]
    | some path =>
      simp only [step, getInfo]
      rw [key _ _ _ _ (fun c s => rfl)]
      exact resolvePath_hits fs path s
  | read fs path off =>
    cases path with
    | none => simp [step, read, Op.found, found]
    | some path =>
      simp only [step, read]
      rw [key _ _ _ _ (fun c s => rfl)]
      exact resolvePath_hits fs path s

/-- After every sequence of requests, the counter of a path is the number of requests for which that path was found in the
lookup paths, whether or not it could be opened. -/
theorem C66_hits (s : Server) (ops : List Op) (p : Str) :
    ((run s ops).hits.get? p).getD 0 = (s.hits.get? p).getD 0 + ops.countP (fun op => op.found s = some p) := by
  induction ops generalizing s with
  | nil => rfl
  | cons op ops ih =>
    obtain ⟨h1, h2, h3⟩ := step_hits s op
    have hsame : ∀ op' : Op, op'.found (step s op) = op'.found s := by
      intro op'
      have hf : ∀ fs path, found (step s op) fs path = found s fs path := by
        intro fs path
        cases path with
        | none => rfl
        | some path => simp only [found, h1, h2]
      cases op' with
      | info fs path => exact hf fs path
      | read fs path off => exact hf fs path
    have := ih (step s op)
    simp only [hsame, h3] at this
    show ((run (step s op) ops).hits.get? p).getD 0 = _
    rw [this, List.countP_cons]
    simp only [decide_eq_true_eq]
    omega

example : ((run { lookup := ["/srv".toList] } [.info oneFile (some "fw.bin".toList), .read oneFile (some "fw.bin".toList) 0,
    .read oneFile (some "nope".toList) 0]).hits.get? "/srv/fw.bin".toList) = some 2 := by decide +kernel

end Files
end Dronecan
