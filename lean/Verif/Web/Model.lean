import Verif.Path.Model
import Verif.Str.Model
import Verif.Esc.Model
/-!
# The web server: which file a request names, and reading request heads

web/common/web-common/FetchFromFileSystem.cpp, SourceCode.cpp, Server.cpp,
apps/WebServer/WebServer.cpp and rt/filesystem/impl/FileSystem_Virtual.cpp (paths relative to
repos/plywood/src, `rt/` = `runtime/ply-runtime/`).  `win` is the format of native paths.
-/
namespace Verif.Web
open Verif

/-- What a file handler does with a request: a failed assertion, an error page, or reading the file
with this name. -/
inductive Serve where
  | fault
  | notFound
  | load (path : List Byte)
deriving DecidableEq, Repr

/-- The keys of `extensionToContentType`, FetchFromFileSystem.cpp:16-23: `.woff2`, `.woff`, `.ttf`,
`.eot`, `.png`, `.css`, `.svg`, `.js`.  The hash map is simplified to the list of its keys. -/
def extensions : List (List Byte) :=
  [[46, 119, 111, 102, 102, 50], [46, 119, 111, 102, 102], [46, 116, 116, 102], [46, 101, 111, 116],
   [46, 112, 110, 103], [46, 99, 115, 115], [46, 115, 118, 103], [46, 106, 115]]

/-- Cutting the request at `?`, FetchFromFileSystem.cpp:32-35. -/
def cutQuery (req : List Byte) : List Byte :=
  match Str.findByte (fun c => c == 63) 0 req with
  | .ofNat getPos => req.take getPos
  | .negSucc _ => req

/-- `FetchFromFileSystem::serve`, FetchFromFileSystem.cpp:29-69, up to the name passed to
`loadBinary` (what happens with the contents is not modelled). -/
def fetch (win : Bool) (rootDir req : List Byte) : Serve :=
  let req := cutQuery req
  match Path.split win req with
  | none => .fault
  | some (_, filename) =>
    match Str.findByte (fun c => c == 46) 0 filename with
    | .negSucc _ => .notFound
    | .ofNat 0 => .notFound
    | .ofNat (k + 1) =>
      if filename.drop (k + 1) ∈ extensions then
        match Path.joinAndNormalize win [rootDir, Str.trim (fun c => c == 47) true false req] with
        | none => .fault
        | some p => .load p
      else .notFound

/-- `SourceCode::serve`, SourceCode.cpp:11-18, up to the name passed to
`openTextForReadAutodetect`. -/
def source (win : Bool) (rootDir req : List Byte) : Serve :=
  match Path.joinAndNormalize win [Str.trim (Path.isSep win) true false req] with
  | none => .fault
  | some norm =>
    match Path.joinAndNormalize win [rootDir, norm] with
    | none => .fault
    | some p => .load p

/-- The part of `myRequestHandler` that reaches files by name, apps/WebServer/WebServer.cpp:22-26
and 35-36 (`/static/`, `/file/`, `/favicon.ico`); `none` = one of the other handlers, which are not
modelled.  `dataRoot` and `srcRoot` are the two root directories. -/
def route (win : Bool) (dataRoot srcRoot req : List Byte) : Option Serve :=
  if Str.startsWith req [47, 115, 116, 97, 116, 105, 99, 47] then some (fetch win dataRoot req)
  else if Str.startsWith req [47, 102, 105, 108, 101, 47] then some (source win srcRoot (req.drop 6))
  else if req = [47, 102, 97, 118, 105, 99, 111, 110, 46, 105, 99, 111] then
    some (fetch win dataRoot [47, 115, 116, 97, 116, 105, 99, 47, 102, 97, 118, 105, 99, 111, 110, 64,
      51, 50, 120, 51, 50, 46, 112, 110, 103])
  else none

/-- `FileSystem_Virtual::convertToTargetPath`, rt/filesystem/impl/FileSystem_Virtual.cpp:17-22;
`none` = the assertion that the path is not absolute. -/
def virtualPath (win : Bool) (targetRoot path : List Byte) : Option (List Byte) :=
  if Path.isAbsolute win path then none
  else Path.joinAndNormalize win [targetRoot, Path.convert false win path]

/-! ## Request heads -/

/-- `readString<fmt::Line>`, rt/io/InStream.h:357-362 with rt/io/impl/TypeParser.h:122-129 and
TypeParser.cpp:61-80: the text consumed up to and including the next line feed (or all of it) and
the text not yet read.  Simplification: the consumed text is what is returned; the code copies it
with `BlockList::toString`, which at this commit runs off the block list (see C52). -/
def readLine (input : List Byte) : List Byte × List Byte :=
  match Esc.scanSpecial [10] input with
  | .found rest => (input.take (input.length - rest.length), rest)
  | _ => (input, [])

/-- How reading the lines of a head ends. -/
inductive HeadEnd where
  | eof (lines : List (List Byte))
  | blank (lines : List (List Byte)) (rest : List Byte)
deriving DecidableEq, Repr

/-- The inner loop of `serverThreadEntry`, web/common/web-common/Server.cpp:108-121.  A line is empty
only if the input is exhausted, and then `atEOF()` holds.  `fuel` bounds the rounds (the model's own
device; each round consumes a byte). -/
def readHead : Nat → List Byte → List (List Byte) → HeadEnd
  | 0, _, lines => .eof lines
  | fuel + 1, input, lines =>
    let r := readLine input
    if r.1 = [] then .eof lines
    else
      match Str.findByte (fun u => !Str.isWhite u) 0 r.1 with
      | .negSucc _ => .blank lines r.2
      | .ofNat _ => readHead fuel r.2 (lines ++ [r.1])

/-- `Request`, web/common/web-common/Response.h:19-35, without the client address. -/
structure Request where
  method : List Byte
  uri : List Byte
  httpVersion : List Byte
  headerFields : List (List Byte × List Byte)
deriving DecidableEq, Repr

/-- Splitting the remaining lines, Server.cpp:136-149; `none` = a line without a colon. -/
def readFields : List (List Byte) → Option (List (List Byte × List Byte))
  | [] => some []
  | line :: lines =>
    match line with
    | [] => none
    | c :: _ =>
      if Str.isWhite c then readFields lines
      else
        match Str.findByte (fun c => c == 58) 0 line with
        | .negSucc _ => none
        | .ofNat colonPos =>
          match readFields lines with
          | none => none
          | some fields =>
            some ((Str.trim Str.isWhite false true (line.take colonPos),
                Str.trim Str.isWhite true true (line.drop (colonPos + 1))) :: fields)

/-- Turning the lines into a request, Server.cpp:122-149.  `none` = ill-formed. -/
def parseHead (line : List Byte) (lines : List (List Byte)) : Option Request :=
  match Str.splitByte 32 (Str.trim Str.isWhite false true line) with
  | [method, uri, version] =>
    match readFields lines with
    | none => none
    | some fields => some ⟨method, uri, version, fields⟩
  | _ => none

/-- `ResponseIface_WebServer::State`, Server.cpp:35. -/
inductive State where
  | noResponse | beganResponse | endedHeader
deriving DecidableEq, Repr

/-- `ResponseCode`, web/common/web-common/Response.h:11-17. -/
inductive Code where
  | unknown | ok | badRequest | notFound | internalError
deriving DecidableEq, Repr

/-- What the server does on a connection, in order: an error page of its own (`respondGeneric`), or
the handler called with a request. -/
inductive Event where
  | generic (code : Code) (chunked : Bool)
  | handled (req : Request)
deriving DecidableEq, Repr

/-- `"HTTP/1.1"` (Server.cpp:152). -/
def http11 : List Byte := [72, 84, 84, 80, 47, 49, 46, 49]

/-- The outer loop of `serverThreadEntry`, Server.cpp:99-164, with `handleMissingResponse`
(Server.cpp:68-76).  `handler` gives the state in which the request handler leaves the response
object; what it writes is its own business.  The connection's input is `input`, followed by the end
of the stream.  `fuel` bounds the rounds. -/
def serve (handler : Request → State) : Nat → List Byte → List Event
  | 0, _ => []
  | fuel + 1, input =>
    match readHead (input.length + 1) input [] with
    | .eof [] => []
    | .eof (_ :: _) => [.generic .badRequest false]
    | .blank [] _ => []
    | .blank (line :: lines) rest =>
      match parseHead line lines with
      | none => [.generic .badRequest false]
      | some req =>
        let isChunked := req.httpVersion == http11
        match handler req with
        | .noResponse =>
          .handled req :: .generic .internalError isChunked ::
            (if isChunked then serve handler fuel rest else [])
        | .beganResponse => [.handled req]
        | .endedHeader => .handled req :: (if isChunked then serve handler fuel rest else [])

/-- A whole connection. -/
def connection (handler : Request → State) (input : List Byte) : List Event :=
  serve handler (input.length + 1) input

/-- `getResponseDescription`, Server.cpp:20-32. -/
def description : Code → List Byte × List Byte
  | .ok => ([50, 48, 48], [79, 75])
  | .badRequest => ([52, 48, 48], [66, 97, 100, 32, 82, 101, 113, 117, 101, 115, 116])
  | .notFound => ([52, 48, 52], [78, 111, 116, 32, 70, 111, 117, 110, 100])
  | .internalError | .unknown =>
    ([53, 48, 48], [73, 110, 116, 101, 114, 110, 97, 108, 32, 83, 101, 114, 118, 101, 114, 32, 69, 114,
      114, 111, 114])

/-- ASCII text of the literals below. -/
def lit (s : String) : List Byte := s.toList.map (fun c => UInt8.ofNat c.toNat)

/-- `respondGeneric`, Server.cpp:79-93, with `beginResponseHeader` (44-58) and `endResponseHeader`
(59-65) and, when chunked, the destruction of `outsChunked`: everything written to the connection.
The header passes through the chunking pipe in plain mode, the page as one write in chunk mode (the
page is smaller than the stream's buffer, so it is written at the final flush). -/
def respondGeneric (code : Code) (isChunked : Bool) : Option (List Byte) :=
  let d := description code
  match Esc.format (lit "HTTP/1.1 {} {}\r\n") [d.1, d.2],
    Esc.format (lit "<html>\n<head><title>{} {}</title></head>\n<body>\n<center><h1>{} {}</h1></center>\n<hr>\n</body>\n</html>\n")
      [d.1, d.2, d.1, d.2] with
  | some status, some page =>
    if isChunked then
      match Esc.chunkResponse true [page] with
      | none => none
      | some body =>
        some (status ++ lit "Transfer-Encoding: chunked\r\nConnection: keep-alive\r\n" ++
          lit "Content-Type: text/html\r\n\r\n" ++ body)
    else some (status ++ lit "Content-Type: text/html\r\n\r\n" ++ page)
  | _, _ => none

end Verif.Web
