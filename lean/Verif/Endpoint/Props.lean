import Verif.Endpoint.Model
import Verif.Ascii.Props
import Mathlib.Tactic.Common
import Mathlib.Data.List.Basic

/-!
# C34, C35, C53: paths, routing and file responses of `endpoint`
-/

namespace Abc.Endpoint

open Abc.Ascii

/-! ## Specification of paths -/

/-- The components of a path: the pieces between slashes. -/
def components : List Byte → List (List Byte)
  | [] => [[]]
  | c :: r =>
    if c = 47 then [] :: components r
    else match components r with
      | [] => [[c]]
      | h :: t => (c :: h) :: t

/-- One step of lexical path resolution. -/
def walk (dir : List (List Byte)) (c : List Byte) : List (List Byte) :=
  if c = [] ∨ c = [46] then dir else if c = [46, 46] then dir.dropLast else dir ++ [c]

/-- The location a path denotes for a process whose working directory is `cwd` (no symbolic links). -/
def locate (cwd : List (List Byte)) (path : List Byte) : List (List Byte) :=
  (components path).foldl walk (if path.head? = some 47 then [] else cwd)

example : locate [str "home"] (str "www//img/./../a.png") = [str "home", str "www", str "a.png"] ∧
    locate [str "home"] (str "/srv/../x") = [str "x"] := by decide

private theorem components_ne (l : List Byte) : components l ≠ [] := by
  cases l with
  | nil => simp [components]
  | cons c r => simp only [components]; split; · simp
                · split <;> simp

private theorem components_append (a b : List Byte) : components (a ++ 47 :: b) = components a ++ components b := by
  induction a with
  | nil => simp [components]
  | cons c r ih =>
    simp only [List.cons_append, components, ih]
    by_cases hc : c = 47
    · simp [hc]
    · simp only [if_neg hc]
      cases h : components r with
      | nil => exact absurd h (components_ne r)
      | cons x t => simp

private theorem walk_prefix (dir : List (List Byte)) (cs : List (List Byte)) (h : [46, 46] ∉ cs) :
    dir <+: cs.foldl walk dir := by
  induction cs generalizing dir with
  | nil => simp
  | cons c cs ih =>
    simp only [List.mem_cons, not_or] at h
    refine List.IsPrefix.trans ?_ (ih (walk dir c) h.2)
    unfold walk
    split
    · exact List.prefix_rfl
    · rw [if_neg (Ne.symm h.1)]; exact List.prefix_append _ _

private theorem locate_append {cwd : List (List Byte)} {root rest : List Byte} (hr : root ≠ []) :
    locate cwd (root ++ 47 :: rest) = (components rest).foldl walk (locate cwd root) := by
  unfold locate
  rw [components_append, List.foldl_append]
  cases root with
  | nil => exact absurd rfl hr
  | cons a t => simp

/-- C34, the part that holds: the path opened for a resource that starts with a slash and has no `..`
component is inside the root directory.  Missing: resources with `..` components, see
`path_inside_violated`. -/
theorem path_inside_partial (cfg : Config) (cwd : List (List Byte)) (resource : List Byte) (hroot : cfg.rootDir ≠ [])
    (hslash : resource.head? = some 47) (hdots : str ".." ∉ components resource) :
    locate cwd cfg.rootDir <+: locate cwd (pathOf cfg resource) := by
  cases resource with
  | nil => simp at hslash
  | cons c r =>
    simp only [List.head?_cons, Option.some.injEq] at hslash
    subst hslash
    unfold pathOf
    rw [locate_append hroot]
    apply walk_prefix
    intro hm
    apply hdots
    simp only [components, if_true]
    exact List.mem_cons_of_mem _ hm

example : let cfg : Config := ⟨str "/srv/www", some (str "/resources/")⟩
    (str "/resources/img/logo.png").head? = some 47 ∧ str ".." ∉ components (str "/resources/img/logo.png") ∧
      locate [] (pathOf cfg (str "/resources/img/logo.png")) = [str "srv", str "www", str "resources", str "img", str "logo.png"] := by
  decide

private theorem fold_false : fold false = lower := by funext c; simp [fold]

private theorem cstr_mem (s : List Byte) (h : (0 : Byte) ∉ s) : cstr (s ++ [0]) = s := by
  unfold cstr
  induction s with
  | nil => simp
  | cons a s ih =>
    simp only [List.mem_cons, not_or] at h
    rw [List.cons_append, List.takeWhile_cons_of_pos (by simpa using Ne.symm h.1), ih h.2]

/-- `are_equal_i` on C strings. -/
theorem equal_i {a b : List Byte} (ha : (0 : Byte) ∉ a) (hb : (0 : Byte) ∉ b) (la : a.length < sizeMax) (lb : b.length < sizeMax) :
    areEqualI (mem a) (mem b) = some (decide (a.map lower = b.map lower)) := by
  unfold areEqualI mem
  rw [are_equal_correct false _ _ _ (by simp) (by simp), cstr_mem a ha, cstr_mem b hb, fold_false,
    List.take_of_length_le (by omega), List.take_of_length_le (by omega)]

/-- Whether a resource starts with a prefix, ignoring case. -/
def startsWithI (pfx s : List Byte) : Prop := pfx.map lower <+: s.map lower

instance (pfx s : List Byte) : Decidable (startsWithI pfx s) := by unfold startsWithI; infer_instance

private theorem prefix_i {r p : List Byte} (hr : (0 : Byte) ∉ r) (hp : (0 : Byte) ∉ p) :
    areEqualIN (mem r) (some (p ++ [0])) p.length = some (decide (startsWithI p r)) := by
  unfold areEqualIN mem
  rw [are_equal_correct false _ _ _ (by simp) (by simp), cstr_mem r hr, cstr_mem p hp, fold_false]
  congr 1
  rw [decide_eq_decide]
  unfold startsWithI
  rw [List.prefix_iff_eq_take, List.length_map, ← List.map_take, List.take_length]
  exact eq_comm

/-- Strings as clients can send them: no NUL, shorter than the address space. -/
def Text (s : List Byte) : Prop := (0 : Byte) ∉ s ∧ s.length < sizeMax

instance (s : List Byte) : Decidable (Text s) := by unfold Text; infer_instance

/-- The configured prefix matches. -/
def PrefixMatches (cfg : Config) (resource : List Byte) : Prop := ∃ p, cfg.filesPrefix = some p ∧ startsWithI p resource

/-- C35: for every method, resource and configuration with any prefix, `is_file_request` tells whether
the resource starts with the prefix or is a GET of `/favicon.ico`, all ignoring case. -/
theorem is_file_request_correct (cfg : Config) (method resource : List Byte) (hm : Text method) (hr : Text resource)
    (hp : ∀ p, cfg.filesPrefix = some p → (0 : Byte) ∉ p) :
    ∃ b, isFileRequest cfg method resource = some b ∧
      (b = true ↔ PrefixMatches cfg resource ∨
        (method.map lower = str "get" ∧ resource.map lower = str "/favicon.ico")) := by
  have e1 : areEqualI (mem method) (mem (str "GET")) = some (decide (method.map lower = str "get")) := by
    rw [equal_i hm.1 (by decide) hm.2 (by decide)]
    have : (str "GET").map lower = str "get" := by decide
    rw [this]
  have e2 : areEqualI (mem resource) (mem (str "/favicon.ico")) = some (decide (resource.map lower = str "/favicon.ico")) := by
    rw [equal_i hr.1 (by decide) hr.2 (by decide)]
    have : (str "/favicon.ico").map lower = str "/favicon.ico" := by decide
    rw [this]
  have rest : ∀ (q : Prop), ¬ q → ∃ b, (match areEqualI (mem method) (mem (str "GET")) with
      | none => none
      | some false => some false
      | some true => areEqualI (mem resource) (mem (str "/favicon.ico"))) = some b ∧
      (b = true ↔ q ∨ (method.map lower = str "get" ∧ resource.map lower = str "/favicon.ico")) := by
    intro q hq
    rw [e1, e2]
    by_cases hg : method.map lower = str "get"
    · simp only [hg, decide_true]
      exact ⟨_, rfl, by simp [hq]⟩
    · simp only [hg, decide_false]
      exact ⟨_, rfl, by simp [hq]⟩
  unfold isFileRequest
  cases hpf : cfg.filesPrefix with
  | none =>
    simp only [Option.map_none, areEqualIN, mem, areEqual]
    exact rest _ (by rintro ⟨p, h1, _⟩; rw [hpf] at h1; simp at h1)
  | some p =>
    simp only [Option.map_some, Option.getD_some]
    rw [prefix_i hr.1 (hp p hpf)]
    by_cases hs : startsWithI p resource
    · simp only [hs, decide_true]
      exact ⟨true, rfl, by simp only [true_iff]; exact Or.inl ⟨p, hpf, hs⟩⟩
    · simp only [hs, decide_false]
      exact rest _ (by rintro ⟨p', h1, h2⟩; rw [hpf] at h1; simp at h1; subst h1; exact hs h2)

example : Text (str "GET") ∧ Text (str "/Resources/a.html") ∧
    isFileRequest ⟨str "/srv", some (str "/resources/")⟩ (str "GET") (str "/Resources/a.html") = some true ∧
    isFileRequest ⟨str "/srv", some (str "/resources/")⟩ (str "POST") (str "/favicon.ico") = some false := by decide

/-- The content type of a path: by the lower-cased text after its last dot. -/
def typeOfExtension (ext : List Byte) : Option String :=
  let e := ext.map lower
  if e = str "html" then some "text/html; charset=utf-8"
  else if e = str "css" then some "text/css; charset=utf-8"
  else if e = str "js" then some "text/javascript; charset=utf-8"
  else if e = str "txt" then some "text/plain; charset=utf-8"
  else if e = str "xml" then some "text/xml; charset=utf-8"
  else if e = str "png" then some "image/png"
  else if e = str "jpeg" ∨ e = str "jpg" then some "image/jpeg"
  else if e = str "gif" then some "image/gif"
  else if e = str "bmp" then some "image/bmp"
  else if e = str "svg" then some "image/svg+xml"
  else none

private theorem lower_dot : lower 46 = 46 := by decide

private theorem chain_eq (ext : List Byte) (he : (0 : Byte) ∉ ext) (hl : ext.length + 1 < sizeMax) :
    contentTypeChain (46 :: ext) contentTypes = some (typeOfExtension ext) := by
  have key : ∀ (s t : String), str s = 46 :: str t → (str t).map lower = str t → (0 : Byte) ∉ str t → (str t).length + 1 < sizeMax →
      areEqualI (mem (46 :: ext)) (mem (str s)) = some (decide (ext.map lower = str t)) := by
    intro s t h1 h2 h3 h4
    rw [h1, equal_i (by simp; exact he) (by simp; exact h3) (by simpa using hl) (by simpa using h4)]
    simp [h2]
  simp only [contentTypes, contentTypeChain]
  rw [key ".html" "html" (by decide) (by decide) (by decide) (by decide), key ".css" "css" (by decide) (by decide) (by decide) (by decide),
    key ".js" "js" (by decide) (by decide) (by decide) (by decide), key ".txt" "txt" (by decide) (by decide) (by decide) (by decide),
    key ".xml" "xml" (by decide) (by decide) (by decide) (by decide), key ".png" "png" (by decide) (by decide) (by decide) (by decide),
    key ".jpeg" "jpeg" (by decide) (by decide) (by decide) (by decide), key ".jpg" "jpg" (by decide) (by decide) (by decide) (by decide),
    key ".gif" "gif" (by decide) (by decide) (by decide) (by decide), key ".bmp" "bmp" (by decide) (by decide) (by decide) (by decide),
    key ".svg" "svg" (by decide) (by decide) (by decide) (by decide)]
  unfold typeOfExtension
  simp only
  by_cases h1 : ext.map lower = str "html"; · rw [h1]; decide
  by_cases h2 : ext.map lower = str "css"; · rw [h2]; decide
  by_cases h3 : ext.map lower = str "js"; · rw [h3]; decide
  by_cases h4 : ext.map lower = str "txt"; · rw [h4]; decide
  by_cases h5 : ext.map lower = str "xml"; · rw [h5]; decide
  by_cases h6 : ext.map lower = str "png"; · rw [h6]; decide
  by_cases h7 : ext.map lower = str "jpeg"; · rw [h7]; decide
  by_cases h8 : ext.map lower = str "jpg"; · rw [h8]; decide
  by_cases h9 : ext.map lower = str "gif"; · rw [h9]; decide
  by_cases h10 : ext.map lower = str "bmp"; · rw [h10]; decide
  by_cases h11 : ext.map lower = str "svg"; · rw [h11]; decide
  simp [h1, h2, h3, h4, h5, h6, h7, h8, h9, h10, h11]

private theorem takeWhile_all {l : List Byte} (h : (46 : Byte) ∉ l) : l.takeWhile (· ≠ 46) = l := by
  induction l with
  | nil => rfl
  | cons a l ih =>
    simp only [List.mem_cons, not_or] at h
    rw [List.takeWhile_cons_of_pos (by simpa using Ne.symm h.1), ih h.2]

/-- C35, content types: any path with a dot gets the type of the text after its last dot, ignoring case;
a path without a dot gets none. -/
theorem content_type_correct (stem ext : List Byte) (hd : (46 : Byte) ∉ ext) (ht : Text (46 :: ext)) :
    contentType (stem ++ 46 :: ext) = some (typeOfExtension ext) := by
  unfold contentType
  have : strrchrDot (stem ++ 46 :: ext) = some (46 :: ext) := by
    unfold strrchrDot
    have e : (stem ++ 46 :: ext).reverse.takeWhile (· ≠ 46) = ext.reverse := by
      rw [List.reverse_append, List.reverse_cons, List.append_assoc]
      rw [List.takeWhile_append_of_pos]
      · simp
      · intro a ha; simp at ha; simp; rintro rfl; exact hd ha
    simp only [e]
    rw [if_neg (by simp; omega)]
    simp
  rw [this]
  simp only
  obtain ⟨h1, h2⟩ := ht
  exact chain_eq ext (by intro h; exact h1 (List.mem_cons_of_mem _ h)) (by simpa using h2)

/-- See `content_type_correct`. -/
theorem content_type_no_dot (path : List Byte) (hd : (46 : Byte) ∉ path) : contentType path = some none := by
  unfold contentType
  have : strrchrDot path = none := by
    unfold strrchrDot
    rw [takeWhile_all (by simpa using hd)]
    simp
  rw [this]

example : (46 : Byte) ∉ str "HtMl" ∧ Text (46 :: str "HtMl") ∧ typeOfExtension (str "HtMl") = some "text/html; charset=utf-8" := by decide

/-- C35, routing of every request: a request under the prefix is answered from the files if it is a GET
(404 without such a file), and with 405 otherwise; GET of `/favicon.ico` is a file; everything else goes
to the REST handler, which requests shutdown exactly for `POST /shutdown`. -/
theorem routing_correct (cfg : Config) (stat : List Byte → Option Nat) (content : List Byte → List Byte) (method resource : List Byte)
    (hm : Text method) (hr : Text resource) (hp : ∀ p, cfg.filesPrefix = some p → (0 : Byte) ∉ p) (hpath : Text (pathOf cfg resource)) :
    ∃ r, processRequest cfg stat content method resource = some r ∧
      (PrefixMatches cfg resource → method.map lower ≠ str "get" → r = .methodNotAllowed) ∧
      (method.map lower = str "get" → (PrefixMatches cfg resource ∨ resource.map lower = str "/favicon.ico") →
        (stat (pathOf cfg resource) = none → r = .notFound) ∧
        (∀ size, stat (pathOf cfg resource) = some size → ∃ t b, r = .file (cfg.rootDir ++ resource) t size b)) ∧
      (¬ PrefixMatches cfg resource → ¬ (method.map lower = str "get" ∧ resource.map lower = str "/favicon.ico") →
        r = .rest (decide (method.map lower = str "post" ∧ resource.map lower = str "/shutdown"))) := by
  obtain ⟨b, hb, hbi⟩ := is_file_request_correct cfg method resource hm hr hp
  have e1 : areEqualI (mem method) (mem (str "GET")) = some (decide (method.map lower = str "get")) := by
    rw [equal_i hm.1 (by decide) hm.2 (by decide)]
    have : (str "GET").map lower = str "get" := by decide
    rw [this]
  have e2 : areEqualI (mem method) (mem (str "POST")) = some (decide (method.map lower = str "post")) := by
    rw [equal_i hm.1 (by decide) hm.2 (by decide)]
    have : (str "POST").map lower = str "post" := by decide
    rw [this]
  have e3 : areEqualI (mem resource) (mem (str "/shutdown")) = some (decide (resource.map lower = str "/shutdown")) := by
    rw [equal_i hr.1 (by decide) hr.2 (by decide)]
    have : (str "/shutdown").map lower = str "/shutdown" := by decide
    rw [this]
  have hct : ∃ ct, contentType (pathOf cfg resource) = some ct := by
    by_cases hd : (46 : Byte) ∈ pathOf cfg resource
    · -- split at the last dot
      have : ∃ s e, pathOf cfg resource = s ++ 46 :: e ∧ (46 : Byte) ∉ e := by
        generalize pathOf cfg resource = l at hd
        induction l with
        | nil => simp at hd
        | cons c l ih =>
          by_cases hl : (46 : Byte) ∈ l
          · obtain ⟨s, e, h1, h2⟩ := ih hl
            exact ⟨c :: s, e, by rw [h1]; rfl, h2⟩
          · have : c = 46 := by simpa [hl, eq_comm] using hd
            exact ⟨[], l, by rw [this]; rfl, hl⟩
      obtain ⟨s, e, h1, h2⟩ := this
      rw [h1] at hpath ⊢
      refine ⟨_, content_type_correct s e h2 ⟨?_, ?_⟩⟩
      · intro h; exact hpath.1 (List.mem_append_right _ h)
      · have := hpath.2; simp only [List.length_append] at this; omega
    · exact ⟨_, content_type_no_dot _ hd⟩
  obtain ⟨ct, hct⟩ := hct
  unfold processRequest
  rw [hb]
  by_cases hg : method.map lower = str "get"
  · have hnp : ¬ method.map lower = str "post" := by rw [hg]; decide
    cases b with
    | false =>
      simp only [Bool.false_eq_true, false_iff, not_or] at hbi
      simp only [processRest, e2, hnp, decide_false]
      refine ⟨_, rfl, fun h => absurd h hbi.1, fun _ h => ?_, fun _ _ => by simp⟩
      rcases h with h | h
      · exact absurd h hbi.1
      · exact absurd ⟨hg, h⟩ hbi.2
    | true =>
      simp only [true_iff] at hbi
      simp only [processFile, e1, hg, decide_true]
      cases hst : stat (pathOf cfg resource) with
      | none =>
        refine ⟨_, rfl, fun _ h => absurd rfl h, fun _ _ => ⟨fun _ => rfl, fun size h => by simp at h⟩, fun h1 h2 => ?_⟩
        rcases hbi with h | h
        · exact absurd h h1
        · exact absurd ⟨trivial, h.2⟩ h2
      | some size =>
        simp only [hct]
        refine ⟨_, rfl, fun _ h => absurd rfl h, fun _ _ => ⟨fun h => by simp at h, fun size' h => ?_⟩, fun h1 h2 => ?_⟩
        · simp only [Option.some.injEq] at h; subst h; exact ⟨_, _, rfl⟩
        · rcases hbi with h | h
          · exact absurd h h1
          · exact absurd ⟨trivial, h.2⟩ h2
  · cases b with
    | false =>
      simp only [Bool.false_eq_true, false_iff, not_or] at hbi
      by_cases hps : method.map lower = str "post"
      · simp only [processRest, e2, hps, decide_true, e3, Option.map_some, true_and]
        exact ⟨_, rfl, fun h => absurd h hbi.1, fun h => absurd h (by decide), fun _ _ => rfl⟩
      · simp only [processRest, e2, hps, decide_false, false_and]
        exact ⟨_, rfl, fun h => absurd h hbi.1, fun h => absurd h hg, fun _ _ => rfl⟩
    | true =>
      simp only [true_iff] at hbi
      have hpm : PrefixMatches cfg resource := by
        rcases hbi with h | h
        · exact h
        · exact absurd h.1 hg
      simp only [processFile, e1, hg, decide_false]
      exact ⟨_, rfl, fun _ _ => rfl, fun h => absurd h (by simp), fun h => absurd hpm h⟩

example : processRequest ⟨str "/srv", some (str "/resources/")⟩ (fun _ => some 3) (fun _ => [1, 2, 3]) (str "GET") (str "/resources/a.txt") =
    some (.file (str "/srv/resources/a.txt") (some "text/plain; charset=utf-8") 3 [1, 2, 3]) ∧
    processRequest ⟨str "/srv", some (str "/resources/")⟩ (fun _ => some 3) (fun _ => [1, 2, 3]) (str "Post") (str "/shutdown") = some (.rest true) ∧
    processRequest ⟨str "/srv", some (str "/resources/")⟩ (fun _ => some 3) (fun _ => [1, 2, 3]) (str "PUT") (str "/RESOURCES/x") = some .methodNotAllowed ∧
    processRequest ⟨str "/srv", none⟩ (fun _ => none) (fun _ => []) (str "GET") (str "/favicon.ico") = some .notFound := by decide

/-- C34 is violated for every root directory (other than the file system's root) and every prefix that
is one directory: a client can name a file outside it, and the file is served. -/
theorem path_inside_violated (cfg : Config) (cwd : List (List Byte)) (dir : List Byte) (stat : List Byte → Option Nat)
    (content : List Byte → List Byte) (hroot : cfg.rootDir ≠ []) (hloc : locate cwd cfg.rootDir ≠ [])
    (hdir : dir ≠ [] ∧ dir ≠ [46] ∧ dir ≠ [46, 46] ∧ (47 : Byte) ∉ dir) (htext : ∀ c ∈ dir, isAbcprint c = true)
    (hsize : cfg.rootDir.length + dir.length + 20 < sizeMax) (hroot0 : (0 : Byte) ∉ cfg.rootDir)
    (hpre : cfg.filesPrefix = some (47 :: dir ++ [47])) (hexists : ∀ p, stat p = some (content p).length) :
    ∃ resource, (∀ c ∈ resource, isAbcprint c = true) ∧
      (∃ t body, processRequest cfg stat content (str "GET") resource = some (.file (cfg.rootDir ++ resource) t (content (cfg.rootDir ++ resource)).length body)) ∧
      ¬ locate cwd cfg.rootDir <+: locate cwd (cfg.rootDir ++ resource) := by
  -- a name different from the last component of the root
  obtain ⟨x, hx1, hx2⟩ : ∃ x : Byte, (x = 97 ∨ x = 98) ∧ (locate cwd cfg.rootDir).getLast hloc ≠ [x] := by
    by_cases h : (locate cwd cfg.rootDir).getLast hloc = [97]
    · exact ⟨98, Or.inr rfl, by rw [h]; decide⟩
    · exact ⟨97, Or.inl rfl, h⟩
  let tail : List Byte := [46, 46, 47, 46, 46, 47, x]
  have h0dir : (0 : Byte) ∉ dir := by
    intro h; have := htext 0 h; revert this; decide
  have hres : (0 : Byte) ∉ (47 : Byte) :: dir ++ 47 :: tail := by
    simp only [tail, List.cons_append, List.mem_cons, List.mem_append, not_or]
    rcases hx1 with rfl | rfl <;> simp [h0dir]
  refine ⟨47 :: dir ++ 47 :: tail, ?_, ?_, ?_⟩
  · intro c hc
    simp only [tail, List.cons_append, List.mem_cons, List.mem_append, List.not_mem_nil, or_false] at hc
    rcases hc with rfl | hc | rfl | rfl | rfl | rfl | rfl | rfl | rfl | hc
    · decide
    · exact htext c hc
    · decide
    · decide
    · decide
    · decide
    · decide
    · decide
    · decide
    · subst hc; rcases hx1 with rfl | rfl <;> decide
  · obtain ⟨r, h1, _, h3, _⟩ := routing_correct cfg stat content (str "GET") (47 :: dir ++ 47 :: tail) (by decide)
      ⟨hres, by simp [tail]; omega⟩ (fun p hp => by
        rw [hpre] at hp; simp only [Option.some.injEq] at hp; subst hp
        simp [h0dir]) ⟨by
          unfold pathOf
          rw [List.mem_append]
          rintro (h | h)
          · exact hroot0 h
          · exact hres h, by simp [pathOf, tail]; omega⟩
    have hpm : PrefixMatches cfg (47 :: dir ++ 47 :: tail) := by
      refine ⟨_, hpre, ?_⟩
      unfold startsWithI
      have : ((47 : Byte) :: dir ++ 47 :: tail) = (47 :: dir ++ [47]) ++ tail := by simp
      rw [this, List.map_append (l₁ := 47 :: dir ++ [47])]
      exact List.prefix_append _ _
    obtain ⟨t, b, h⟩ := (h3 (by decide) (Or.inl hpm)).2 _ (hexists _)
    exact ⟨t, b, by rw [h1, h]; rfl⟩
  · have happ : cfg.rootDir ++ ((47 : Byte) :: dir ++ 47 :: tail) = cfg.rootDir ++ 47 :: (dir ++ 47 :: tail) := by simp
    rw [happ, locate_append hroot, components_append]
    have hcd : components dir = [dir] := by
      have : ∀ d : List Byte, (47 : Byte) ∉ d → components d = [d] := by
        intro d hd
        induction d with
        | nil => rfl
        | cons c d ih =>
          simp only [List.mem_cons, not_or] at hd
          simp [components, Ne.symm hd.1, ih hd.2]
      exact this dir hdir.2.2.2
    have hct : components tail = [[46, 46], [46, 46], [x]] := by
      rcases hx1 with rfl | rfl <;> decide
    rw [hcd, hct]
    generalize hL : locate cwd cfg.rootDir = L at *
    have hw1 : walk L dir = L ++ [dir] := by
      unfold walk; rw [if_neg (by simp [hdir.1, hdir.2.1]), if_neg hdir.2.2.1]
    have hw2 : ∀ d, walk d [46, 46] = d.dropLast := by intro d; unfold walk; simp
    have hw3 : ∀ d, walk d [x] = d ++ [[x]] := by
      intro d; unfold walk
      rcases hx1 with rfl | rfl <;> simp
    simp only [List.singleton_append, List.foldl_cons, List.foldl_nil, hw1, hw2, hw3, List.dropLast_concat]
    intro hpre'
    have hlen : (L.dropLast ++ [[x]]).length = L.length := by
      have := List.length_pos_of_ne_nil hloc
      simp; omega
    have := List.IsPrefix.eq_of_length hpre' hlen.symm
    apply hx2
    have h2 := congrArg List.getLast? this
    rw [List.getLast?_eq_some_getLast hloc] at h2
    simpa using h2

example : let cfg : Config := ⟨str "/srv/www", some (str "/resources/")⟩
    locate [] cfg.rootDir = [str "srv", str "www"] ∧
    locate [] (cfg.rootDir ++ str "/resources/../../a") = [str "srv", str "a"] := by decide

/-! ## C53 -/

private theorem sendChunks_eq (n : Nat) (l : List Byte) : sendChunks n l = l.take (n * chunkSize) := by
  induction n generalizing l with
  | zero => simp [sendChunks]
  | succ n ih =>
    rw [sendChunks, ih, Nat.succ_mul, Nat.add_comm, List.take_add]

/-- C53: a file whose size is the one reported by the file system is sent completely and unchanged, and
its `Content-Length` is its size. -/
theorem file_body_correct (stat : List Byte → Option Nat) (content : List Byte → List Byte) (path : List Byte) (hpath : Text path)
    (hsize : stat path = some (content path).length) :
    ∃ t, processFile stat content (str "GET") path = some (.file path t (content path).length (content path)) := by
  obtain ⟨r, h1, _, h3, _⟩ := routing_correct ⟨[], some []⟩ stat content (str "GET") path (by decide) hpath (by simp) (by simpa [pathOf] using hpath)
  have hpm : PrefixMatches ⟨[], some []⟩ path := ⟨[], rfl, by simp [startsWithI]⟩
  obtain ⟨t, b, h⟩ := (h3 (by decide) (Or.inl hpm)).2 _ (by simpa [pathOf] using hsize)
  have hf : isFileRequest ⟨[], some []⟩ (str "GET") path = some true := by
    obtain ⟨b', hb', hi⟩ := is_file_request_correct ⟨[], some []⟩ (str "GET") path (by decide) hpath (by simp)
    rw [hb', hi.2 (Or.inl hpm)]
  unfold processRequest at h1
  rw [hf] at h1
  simp only [pathOf, List.nil_append] at h1
  rw [h] at h1
  simp only [List.nil_append] at h1
  refine ⟨t, ?_⟩
  rw [h1]
  -- the body
  have hb : b = sendChunks (chunkCount (content path).length) (content path) := by
    unfold processFile at h1
    have e1 : areEqualI (mem (str "GET")) (mem (str "GET")) = some true := by decide
    rw [e1, hsize] at h1
    simp only at h1
    split at h1
    · simp at h1
    · simp only [Option.some.injEq, Response.file.injEq] at h1; exact h1.2.2.2.symm
  rw [hb, sendChunks_eq, List.take_of_length_le]
  unfold chunkCount chunkSize
  omega

example : (fun _ : List Byte => some 2000) (str "/srv/a") = some ((fun _ : List Byte => List.replicate 2000 (7 : Byte)) (str "/srv/a")).length := by
  simp only [List.length_replicate]

end Abc.Endpoint
