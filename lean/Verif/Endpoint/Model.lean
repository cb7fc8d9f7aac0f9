import Verif.Ascii.Model

/-!
# Model of request routing and static files of `endpoint` (`src/endpoint.h`)

C strings are the lists of their characters (without the terminator); where the code passes a pointer
to the comparison helpers the terminator is added.  The HTTP side (reading the request line, writing
status line and headers) is modelled in `Verif/Http`.
-/

namespace Abc.Endpoint

open Abc.Ascii

/-- ASCII text. -/
def str (s : String) : List Byte := s.toList.map (fun c => UInt8.ofNat c.toNat)

/-- The part of `endpoint_config` used here, `src/endpoint.h` 352-367: `root_dir` and `files_prefix`
(`none` = `nullptr`; a null `root_dir` would be undefined behaviour in `strcpy`, line 120). -/
structure Config where
  rootDir : List Byte
  filesPrefix : Option (List Byte)

/-- A C string as the memory passed to `ascii::are_equal…`. -/
def mem (s : List Byte) : Option (List Byte) := some (s ++ [0])

/-- `is_file_request`, 327-330; `files_prefix_len` is the length of the prefix, or 0. -/
def isFileRequest (cfg : Config) (method resource : List Byte) : Option Bool :=
  match areEqualIN (mem resource) (cfg.filesPrefix.map (· ++ [0])) ((cfg.filesPrefix.map List.length).getD 0) with
  | none => none
  | some true => some true
  | some false =>
    match areEqualI (mem method) (mem (str "GET")) with
    | none => none
    | some false => some false
    | some true => areEqualI (mem resource) (mem (str "/favicon.ico"))

/-- `strrchr(path, '.')`, 283: the suffix starting at the last dot. -/
def strrchrDot (path : List Byte) : Option (List Byte) :=
  let e := path.reverse.takeWhile (· ≠ 46)
  if e.length = path.length then none else some (46 :: e.reverse)

/-- The chain of comparisons of `get_content_type_from_path`, 288-320. -/
def contentTypeChain (ext : List Byte) : List (String × String) → Option (Option String)
  | [] => some none
  | (e, t) :: rest =>
    match areEqualI (mem ext) (mem (str e)) with
    | none => none
    | some true => some (some t)
    | some false => contentTypeChain ext rest

/-- The extensions and types of 288-320 (`src/i/endpoint.i.h` 209-223). -/
def contentTypes : List (String × String) :=
  [(".html", "text/html; charset=utf-8"), (".css", "text/css; charset=utf-8"), (".js", "text/javascript; charset=utf-8"),
   (".txt", "text/plain; charset=utf-8"), (".xml", "text/xml; charset=utf-8"), (".png", "image/png"),
   (".jpeg", "image/jpeg"), (".jpg", "image/jpeg"), (".gif", "image/gif"), (".bmp", "image/bmp"), (".svg", "image/svg+xml")]

/-- `get_content_type_from_path`, 282-323; the inner `none` is `nullptr`. -/
def contentType (path : List Byte) : Option (Option String) :=
  match strrchrDot path with
  | none => some none
  | some ext => contentTypeChain ext contentTypes

/-- The path of a resource, 123-126: `strcpy(path, root_dir)` and the resource right behind it (that
both fit the buffer is checked in `Verif/Http`). -/
def pathOf (cfg : Config) (resource : List Byte) : List Byte := cfg.rootDir ++ resource

/-- What is sent as the response. -/
inductive Response where
  /-- 405, lines 180-183 -/
  | methodNotAllowed
  /-- 404, lines 194-197 -/
  | notFound
  /-- 200 with a file, lines 199-231 -/
  | file (path : List Byte) (contentType : Option String) (contentLength : Nat) (body : List Byte)
  /-- `process_rest_request` of the base class, 236-246; tells whether shutdown was requested -/
  | rest (shutdown : Bool)
deriving DecidableEq, Repr

/-- One `file.read(file_chunk, 1024)` and `put_body(file_chunk, gcount)`, 229-230, on what is left of
the file. -/
def chunkSize : Nat := 1024

/-- The loop 228-231, `n` iterations. -/
def sendChunks : Nat → List Byte → List Byte
  | 0, _ => []
  | n + 1, left => left.take chunkSize ++ sendChunks n (left.drop chunkSize)

/-- Number of iterations of `for (sent = 0; sent < fsize; sent += 1024)`. -/
def chunkCount (fsize : Nat) : Nat := (fsize + (chunkSize - 1)) / chunkSize

/-- `process_file_request`, 174-232.  `stat` gives the size reported by `::stat` (`none`: error),
`content` the bytes an `ifstream` on the path delivers. -/
def processFile (stat : List Byte → Option Nat) (content : List Byte → List Byte) (method path : List Byte) : Option Response :=
  match areEqualI (mem method) (mem (str "GET")) with
  | none => none
  | some false => some .methodNotAllowed
  | some true =>
    match stat path with
    | none => some .notFound
    | some fsize =>
      match contentType path with
      | none => none
      | some ct => some (.file path ct fsize (sendChunks (chunkCount fsize) (content path)))

/-- `process_rest_request`, 236-246. -/
def processRest (method resource : List Byte) : Option Response :=
  match areEqualI (mem method) (mem (str "POST")) with
  | none => none
  | some false => some (.rest false)
  | some true => (areEqualI (mem resource) (mem (str "/shutdown"))).map .rest

/-- Lines 147-152 of `process_request`. -/
def processRequest (cfg : Config) (stat : List Byte → Option Nat) (content : List Byte → List Byte)
    (method resource : List Byte) : Option Response :=
  match isFileRequest cfg method resource with
  | none => none
  | some true => processFile stat content method (pathOf cfg resource)
  | some false => processRest method resource

end Abc.Endpoint
