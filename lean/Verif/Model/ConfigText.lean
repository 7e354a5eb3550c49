/-!
Model of how a text comes to the parsers of configs: `read(const char*, size_t)`, `read(const std::string&)` and `read(std::istream&)` of
`ini.cpp`, `xml.cpp`, `json.cpp` and `yaml.cpp` (`/repo/modules/config/yato/config/…`), and `get_text_stream_content` (`utility.cpp`).

The environment, as the C++ standard and the libraries describe it:
 * `std::istream` (`tellg`, `seekg`, `read`): every one of them first builds a `sentry`, which sets `failbit` if the stream is not good;
   `seekg` clears `eofbit` before that. `badbit` and `failbit` are one flag.
 * inih and tinyxml2 read up to the first zero byte; nlohmann::json and yaml-cpp read all bytes, and a stream from its current position,
   without seeking; yaml-cpp reads nothing from a stream that has failed.

Simplifications: bytes are natural numbers; memory is the list of the bytes from the pointer on; the sizes are less than 2^63.
-/
set_option autoImplicit false

namespace Verif.ConfigText

/-- A stream for reading. -/
structure Stream where
  /-- everything that is in the file, string, … behind it -/
  bytes : List Nat
  pos : Nat
  /-- `false` for pipes, terminals, sockets, … -/
  seekable : Bool
  /-- a file opened in text mode on a system on which lines end with two bytes -/
  crlf : Bool
  eof : Bool
  fail : Bool
deriving DecidableEq, Repr

/-- the constructor of `sentry` -/
def Stream.sentry (s : Stream) : Stream := if s.eof || s.fail then { s with fail := true } else s

def Stream.tellg (s : Stream) : Int × Stream :=
  let s := s.sentry
  if s.fail then (-1, s) else if s.seekable then (s.pos, s) else (-1, s)

/-- `seekg(0, end)` -/
def Stream.seekEnd (s : Stream) : Stream :=
  let s := { s with eof := false }.sentry
  if s.fail then s else if s.seekable then { s with pos := s.bytes.length } else { s with fail := true }

/-- `seekg(p)` -/
def Stream.seekTo (s : Stream) (p : Int) : Stream :=
  let s := { s with eof := false }.sentry
  if s.fail then s else if s.seekable && 0 ≤ p then { s with pos := p.toNat } else { s with fail := true }

/-- At most `n` characters from the bytes, and how many bytes they take. -/
def chars (crlf : Bool) : Nat → List Nat → List Nat × Nat
  | 0, _ => ([], 0)
  | _ + 1, [] => ([], 0)
  | n + 1, b :: r =>
    match crlf && b == 13, r with
    | true, 10 :: r => (10 :: (chars crlf n r).1, (chars crlf n r).2 + 2)
    | _, r => (b :: (chars crlf n r).1, (chars crlf n r).2 + 1)

/-- `read(p, n)`: what was read -/
def Stream.read (s : Stream) (n : Nat) : List Nat × Stream :=
  let s := s.sentry
  if s.fail then ([], s)
  else
    let got := chars s.crlf n (s.bytes.drop s.pos)
    if got.1.length < n then (got.1, { s with pos := s.pos + got.2, eof := true, fail := true }) else (got.1, { s with pos := s.pos + got.2 })

inductive Out (α : Type) where
  | ok (a : α)
  | threw
  | ub
deriving DecidableEq, Repr

/-- utility.cpp l.140-149 `get_text_stream_content`. A negative difference makes `narrow_cast` throw, or, where it does not check, the
constructor of the string. -/
def content (s : Stream) : Out (List Nat × Stream) :=
  let r := s.tellg
  let s := r.2.seekEnd
  let e := s.tellg
  let len := e.1 - r.1
  if len < 0 then .threw
  else
    let s := e.2.seekTo r.1
    let g := s.read len.toNat
    .ok (g.1 ++ List.replicate (len.toNat - g.1.length) 0, g.2)

inductive Fmt where
  | ini
  | xml
  | json
  | yaml
deriving DecidableEq, Repr

/-- What `read` is called with. -/
inductive Given where
  /-- a pointer; `none`: the null pointer -/
  | ptr (mem : Option (List Nat))
  /-- a pointer and a length -/
  | ptrLen (mem : Option (List Nat)) (len : Nat)
  | string (bytes : List Nat)
  | stream (s : Stream)

/-- types.h l.184 `nolength` -/
def nolength : Nat := 2 ^ 64 - 1

/-- a string that ends with a zero byte, which must be there -/
def cstr : List Nat → Out (List Nat)
  | [] => .ub
  | 0 :: _ => .ok []
  | b :: r => match cstr r with | .ok t => .ok (b :: t) | o => o

/-- the bytes before the first zero byte, or all -/
def untilZero : List Nat → List Nat
  | [] => []
  | 0 :: _ => []
  | b :: r => b :: untilZero r

/-- what the parser makes of the bytes it is given -/
def seen : Fmt → List Nat → List Nat
  | .ini, t => untilZero t
  | .xml, t => untilZero t
  | .json, t => t
  | .yaml, t => t

/-- A null pointer with the length 0 is not told apart. `read(str, len)`: ini.cpp l.22-33, xml.cpp l.29-42 (a null pointer is refused), json.cpp l.43-46, yaml.cpp l.29-37 -/
def readPtr (f : Fmt) (mem : Option (List Nat)) (len : Nat) : Out (List Nat) :=
  match mem with
  | none => if f = .xml then .threw else .ub
  | some m => if len ≠ nolength then (if m.length < len then .ub else .ok (seen f (m.take len))) else cstr m

/-- `read(is)`: ini.cpp l.40-43, xml.cpp l.49-52, json.cpp l.53-56, yaml.cpp l.44-47 -/
def readStream (f : Fmt) (s : Stream) : Out (List Nat) :=
  match f with
  | .json => .ok (chars s.crlf s.bytes.length (s.bytes.drop s.pos)).1
  | .yaml => if s.fail then .ok [] else .ok (chars s.crlf s.bytes.length (s.bytes.drop s.pos)).1
  | f =>
    match content s with
    | .ok (t, _) => .ok (seen f t)
    | .threw => .threw
    | .ub => .ub

/-- The text that the parser reads. -/
def text (f : Fmt) : Given → Out (List Nat)
  | .ptr mem => readPtr f mem nolength
  | .ptrLen mem len => readPtr f mem len
  | .string t => .ok (seen f t) -- ini.cpp l.35-38, xml.cpp l.44-47, json.cpp l.48-51, yaml.cpp l.39-42
  | .stream s => readStream f s

end Verif.ConfigText
