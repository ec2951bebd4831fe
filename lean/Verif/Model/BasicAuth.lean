import Verif.Model.Http
/-!
The credentials of a request: `req.BasicAuth()` of net/http (server.go:119) and the base64 decoder of the Go library it uses.
-/
namespace Rothko

/-- The value of a character of `base64.StdEncoding`. (server.go:119, library code: encoding/base64, the decode map.) -/
def b64Val (c : UInt8) : Option Nat :=
  if 65 ≤ c.toNat ∧ c.toNat ≤ 90 then some (c.toNat - 65)
  else if 97 ≤ c.toNat ∧ c.toNat ≤ 122 then some (c.toNat - 71)
  else if 48 ≤ c.toNat ∧ c.toNat ≤ 57 then some (c.toNat + 4)
  else if c = 43 then some 62
  else if c = 47 then some 63
  else none

/-- The decoder of `base64.StdEncoding` after line breaks were dropped: groups of four characters; the last may end in one or two `=`, after which nothing may follow, and the bits left over in it are ignored. (server.go:119, library code: encoding/base64, `decode`.) -/
def b64Groups : Bytes → Option Bytes
  | [] => some []
  | a :: b :: c :: d :: rest =>
    match b64Val a, b64Val b with
    | some x, some y =>
      if c = 61 then if d = 61 ∧ rest = [] then some [UInt8.ofNat ((x * 64 + y) / 16)] else none
      else match b64Val c with
        | none => none
        | some z =>
          if d = 61 then if rest = [] then some [UInt8.ofNat (((x * 64 + y) * 64 + z) / 1024), UInt8.ofNat (((x * 64 + y) * 64 + z) / 4)] else none
          else match b64Val d with
            | none => none
            | some w => (b64Groups rest).map (fun s => UInt8.ofNat ((((x * 64 + y) * 64 + z) * 64 + w) / 65536) :: UInt8.ofNat ((((x * 64 + y) * 64 + z) * 64 + w) / 256) :: UInt8.ofNat (((x * 64 + y) * 64 + z) * 64 + w) :: s)
    | _, _ => none
  | _ => none

/-- `base64.StdEncoding.DecodeString`: carriage returns and line feeds are dropped first. (server.go:119, library code.) -/
def b64Decode (s : Bytes) : Option Bytes := b64Groups (s.filter (fun c => c != 13 && c != 10))

/-- The text before the first colon and the one after it, if there is one. (server.go:119, library code: net/http, `parseBasicAuth`, `strings.IndexByte(cs, ':')`.) -/
def cutColon : Bytes → Option (Bytes × Bytes)
  | [] => none
  | c :: s => if c = 58 then some ([], s) else (cutColon s).map (fun x => (c :: x.1, x.2))

/-- The letter in lower case. (server.go:119, library code: `strings.EqualFold` of ASCII letters; the characters that fold to letters of "Basic " and are not ASCII, "ſ" for "s", are left out: they have two bytes and do not match a prefix of six.) -/
def foldLetter (c : UInt8) : UInt8 := if 65 ≤ c.toNat ∧ c.toNat ≤ 90 then c + 32 else c

/-- `req.BasicAuth()` (server.go:119, library code: net/http). `header` is the first value of the header Authorization, empty if there is none. Up to Go 1.11 the word "Basic" has to be spelled so (`fold` is false), later in any case. -/
def basicAuth (fold : Bool) (header : Bytes) : Option (Bytes × Bytes) :=
  let scheme := header.take 6
  let basic : Bytes := [66, 97, 115, 105, 99, 32]
  if scheme = basic ∨ (fold = true ∧ scheme.map foldLetter = basic.map foldLetter) then (b64Decode (header.drop 6)).bind cutColon
  else none

/-- A request with this header Authorization. (server.go:115-124.) -/
def HReq.withHeader (req : HReq) (fold : Bool) (header : Bytes) : HReq := { req with auth := basicAuth fold header }

end Rothko
