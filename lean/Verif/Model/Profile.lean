import Verif.Model.Split
import Verif.Model.Ros

/-!
# Resolution profiles on the command line (`tools/src/mcap_converter.cpp`)
-/

namespace Cloudini.Profile

/-- `std::string::operator<`: bytes compared as `unsigned char`. -/
def strLt : List Byte → List Byte → Bool
  | [], [] => false
  | [], _ :: _ => true
  | _ :: _, [] => false
  | a :: as, b :: bs => if a.toNat < b.toNat then true else if b.toNat < a.toNat then false else strLt as bs

/-- `std::map<std::string, float>`: the entries by increasing key. -/
abbrev Map := List (List Byte × BitVec 32)

/-- `map[k] = v`. -/
def put (k : List Byte) (v : BitVec 32) : Map → Map
  | [] => [(k, v)]
  | (k', v') :: r => if k = k' then (k, v) :: r else if strLt k k' then (k, v) :: (k', v') :: r else (k', v') :: put k v r

/-- `map.find(k)`. -/
def get (m : Map) (k : List Byte) : Option (BitVec 32) := (m.find? fun e => e.1 = k).map (·.2)

/-- mcap_converter.cpp:315-318 `trimSpaces`: the first loop. -/
def trimFront (s : List Byte) : List Byte := s.dropWhile isSpace

/-- mcap_converter.cpp:314-323 `trimSpaces` (`std::isspace` on a negative `char` is outside the C contract; glibc answers no). -/
def trim (s : List Byte) : List Byte := ((trimFront s).reverse.dropWhile isSpace).reverse

/-- mcap_converter.cpp:334-344 `addProfile`: the value of an entry.  `stof` throws "invalid_argument" or "out_of_range"; only the former is caught and
turned into a `runtime_error`, but both are exceptions. -/
def value (stof : List Byte → Res (BitVec 32)) (text : List Byte) : Res (BitVec 32) :=
  if text = ascii "remove" then .ok 0#32 else stof text

/-- mcap_converter.cpp:345-351 `addProfile`: the assignments of one entry. -/
def assign (field : List Byte) (r : BitVec 32) (m : Map) : Map :=
  if field = ascii "xyz" then put (ascii "z") r (put (ascii "y") r (put (ascii "x") r m)) else put field r m

/-- mcap_converter.cpp:327-352 `addProfile`: the loop over the entries.  The map is a member: it keeps what was assigned before an exception. -/
def addEntries (stof : List Byte → Res (BitVec 32)) : List (List Byte) → Map → Map × Res Unit
  | [], m => (m, .ok ())
  | t :: ts, m =>
    match split 58#8 t with
    | [a, b] =>
      match value stof (trim b) with
      | .ok r => addEntries stof ts (assign (trim a) r m)
      | .throw e => (m, .throw e)
      | .ub k => (m, .ub k)
    | _ => (m, .throw "Invalid profile (wrong number of parameters)")

/-- mcap_converter.cpp:325-353 `McapConverter::addProfile`. -/
def addProfile (stof : List Byte → Res (BitVec 32)) (profile : List Byte) (m : Map) : Map × Res Unit := addEntries stof (split 59#8 profile) m

/-- mcap_converter.cpp:360-368: `profile.push_back({k, profile_resolutions_.at(k)})` if present. -/
def one (m : Map) (k : List Byte) : Map :=
  match get m k with
  | some v => [(k, v)]
  | none => []

/-- mcap_converter.cpp:355-375 `McapConverter::getProfile`. -/
def getProfile (m : Map) : Map :=
  if m = [] then []
  else one m (ascii "x") ++ one m (ascii "y") ++ one m (ascii "z") ++
    m.filter fun e => e.1 ≠ ascii "x" ∧ e.1 ≠ ascii "y" ∧ e.1 ≠ ascii "z"

end Cloudini.Profile
