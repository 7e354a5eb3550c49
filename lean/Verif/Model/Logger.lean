/-!
# Model of the logger (`modules/actors/yato/actors/logger.h`, `private/logger.cpp`)

Text is a list of bytes. The buffer of `format_and_write` is a list of 2049 bytes with arbitrary initial contents; an access outside of it
and an overflow of `int` are undefined behaviour, the outcome `none`.

Simplifications. `snprintf` is described by its result: the bytes the format and the arguments stand for, or an error. The console is the
sequence of the strings written to `std::cout`; one thread writes. `int` has 32 bits.
-/
set_option autoImplicit false

namespace Verif.Logger

/-- logger.h l.23-32 `log_level` -/
inductive Level where
  | silent | error | warning | info | debug | verbose
  deriving DecidableEq, Repr

/-- the value of the enumerator -/
def Level.val : Level → Nat
  | .silent => 0
  | .error => 1
  | .warning => 2
  | .info => 3
  | .debug => 4
  | .verbose => 5

/-- bytes of an ASCII text -/
def bytes (s : String) : List Nat := s.toList.map Char.toNat

/-- logger.cpp l.27-32 `m_tags`; the one of `silent` is a null pointer, for which `%s` is undefined -/
def tag : Level → Option (List Nat)
  | .silent => none
  | .error => some (bytes "[ERROR]   ")
  | .warning => some (bytes "[WARNING] ")
  | .info => some (bytes "[INFO]    ")
  | .debug => some (bytes "[DEBUG]   ")
  | .verbose => some (bytes "[VERBOSE] ")

/-- logger.h l.38 `MESSAGE_LENGTH` -/
def messageLength : Nat := 2048

/-- C: largest `int` -/
def intMax : Nat := 2 ^ 31 - 1

/-- C: a string ends at the first zero byte -/
def cstr (l : List Nat) : List Nat := l.takeWhile (· ≠ 0)

/-- C: writing `xs` to the buffer from index `i` on -/
def write (buf : List Nat) (i : Nat) (xs : List Nat) : Option (List Nat) :=
  if i + xs.length ≤ buf.length then some (buf.take i ++ xs ++ buf.drop (i + xs.length)) else none

/-- C: `snprintf(buf + at, size, ...)` for an output `text`, not an error: at most `size - 1` bytes and a zero byte are written, the length
of the whole text is returned. A text longer than `INT_MAX` is an error (`none` in the second component), and nothing is known of the
buffer then; simplified: it is unchanged. -/
def snprintf (buf : List Nat) (at_ size : Nat) (text : List Nat) : Option (List Nat × Option Nat) :=
  if intMax < text.length then some (buf, none)
  else if size = 0 then some (buf, some text.length)
  else do
    let b ← write buf at_ (text.take (size - 1) ++ [0])
    return (b, some text.length)

/-- C++: `int` addition -/
def addInt (a b : Int) : Option Int := if a + b ≤ intMax then some (a + b) else none

/-- C++: reading the buffer at an `int` index -/
def readAt (buf : List Nat) (i : Int) : Option Nat := if 0 ≤ i then buf[i.toNat]? else none

/-- C++: writing one byte at an `int` index -/
def writeAt (buf : List Nat) (i : Int) (x : Nat) : Option (List Nat) := if 0 ≤ i then write buf i.toNat [x] else none

/-- C: the value `snprintf` returns -/
def returned : Option Nat → Int
  | some n => n
  | none => -1

/-- C++: `std::cout << buffer.data()`: the bytes up to the first zero; there has to be one in the buffer -/
def output (buf : List Nat) : Option (List Nat) := if 0 ∈ buf then some (cstr buf) else none

/-- logger.h l.40-41 name and filter of a logger -/
structure Logger where
  name : List Nat
  filter : Level

/-- logger.cpp l.19-33 constructor; `debug` says whether this is a debug build -/
def create (debug : Bool) (name : List Nat) : Logger := ⟨name, if debug then .debug else .info⟩

/-- logger.h l.83-85 `set_filter` -/
def Logger.setFilter (l : Logger) (level : Level) : Logger := { l with filter := level }

/-- logger.h l.57-58 and l.61-62: print `text` at index `len` of the buffer, with room up to `MESSAGE_LENGTH`; the new length -/
def print (buf : List Nat) (len : Int) (text : List Nat) : Option (List Nat × Int) :=
  if len < 0 then none
  else match snprintf buf len.toNat ((messageLength : Int) - len).toNat text with
    | none => none
    | some (b, r) => (addInt len (returned r)).map fun n => (b, min n ((messageLength : Int) - 1))

/-- logger.h l.66-69: a newline at the end, if there is none -/
def endLine (buf : List Nat) (len : Int) : Option (List Nat) :=
  match readAt buf (len - 1) with
  | none => none
  | some last => if last ≠ 10 then (writeAt buf len 10).bind fun b => writeAt b (len + 1) 0 else some buf

/-- logger.h l.51-73 `format_and_write` with a buffer of arbitrary contents. `text` is what the format and its arguments stand for. The
result is what is written to the console. -/
def Logger.formatAndWrite (l : Logger) (buf : List Nat) (level : Level) (text : List Nat) : Option (List Nat) :=
  if level.val ≤ l.filter.val then
    match tag level with
    | none => none
    | some t =>
      (print buf 0 (t ++ cstr l.name ++ bytes " - ")).bind fun p =>
      (print p.1 p.2 text).bind fun q =>
      (endLine q.1 q.2).bind output
  else some []

/-- the public functions: logger.h l.91-98, l.103-110, l.112-119, l.121-136, l.139-146. `debug` does nothing outside of debug builds. -/
def Logger.log (l : Logger) (debug : Bool) (buf : List Nat) (level : Level) (text : List Nat) : Option (List Nat) :=
  if level = .debug ∧ debug = false then some [] else l.formatAndWrite buf level text

/-- the overloads for `std::string` use the format `"%s"` with `str.c_str()` -/
def Logger.logString (l : Logger) (debug : Bool) (buf : List Nat) (level : Level) (str : List Nat) : Option (List Nat) :=
  l.log debug buf level (cstr str)

end Verif.Logger
