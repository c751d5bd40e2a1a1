/-
JSON texts (RFC 8259) as a function from characters to values.
-/
namespace Spec.Json

/-- A JSON value. A number is `m * 10^e`; a string a list of code points, where `\uXXXX` stands for `XXXX` (surrogates
are not joined); the members of an object in the order of the text. -/
inductive Json where
  | null
  | bool (b : Bool)
  | num (m e : Int)
  | str (s : List Nat)
  | arr (l : List Json)
  | obj (l : List (List Nat × Json))

/-- White space (section 2). -/
def isWs (c : Char) : Bool := c == ' ' || c == '\t' || c == '\n' || c == '\r'

def skipWs (l : List Char) : List Char := l.dropWhile isWs

/-- A hexadecimal digit. -/
def hex (c : Char) : Option Nat :=
  if '0' ≤ c ∧ c ≤ '9' then some (c.toNat - 48)
  else if 'a' ≤ c ∧ c ≤ 'f' then some (c.toNat - 87)
  else if 'A' ≤ c ∧ c ≤ 'F' then some (c.toNat - 55)
  else none

/-- The escapes of one character (section 7). -/
def escape (c : Char) : Option Nat :=
  if c = '"' then some 0x22
  else if c = '\\' then some 0x5C
  else if c = '/' then some 0x2F
  else if c = 'b' then some 8
  else if c = 'f' then some 12
  else if c = 'n' then some 10
  else if c = 'r' then some 13
  else if c = 't' then some 9
  else none

/-- A string after its opening quotation mark (section 7): its characters and what follows. -/
def strBody : List Char → Option (List Nat × List Char)
  | [] => none
  | c :: r =>
    if c = '"' then some ([], r)
    else if c = '\\' then
      match r with
      | 'u' :: h1 :: h2 :: h3 :: h4 :: r' => do
        let a ← hex h1
        let b ← hex h2
        let c ← hex h3
        let d ← hex h4
        let (s, r'') ← strBody r'
        some ((((a * 16 + b) * 16 + c) * 16 + d) :: s, r'')
      | e :: r' => do
        let v ← escape e
        let (s, r'') ← strBody r'
        some (v :: s, r'')
      | [] => none
    else if c.toNat < 0x20 then none
    else do
      let (s, r') ← strBody r
      some (c.toNat :: s, r')

def isDigit (c : Char) : Bool := decide ('0' ≤ c) && decide (c ≤ '9')

/-- The number written by decimal digits. -/
def ofDigits (l : List Char) : Nat := l.foldl (fun n c => 10 * n + (c.toNat - 48)) 0

/-- A number (section 6): mantissa, exponent, and what follows. -/
def number (l : List Char) : Option (Int × Int × List Char) :=
  let neg := l.head? == some '-'
  let l := if neg then l.tail else l
  let ip := l.takeWhile isDigit
  let l := l.dropWhile isDigit
  if ip = [] ∨ (ip.head? = some '0' ∧ 1 < ip.length) then none
  else
    let dot := l.head? == some '.'
    let fp := if dot then l.tail.takeWhile isDigit else []
    let l := if dot then l.tail.dropWhile isDigit else l
    if dot ∧ fp = [] then none
    else
      let m : Int := ofDigits (ip ++ fp)
      let m := if neg then -m else m
      if l.head? = some 'e' ∨ l.head? = some 'E' then
        let l := l.tail
        let eneg := l.head? == some '-'
        let l := if l.head? = some '-' ∨ l.head? = some '+' then l.tail else l
        let ep := l.takeWhile isDigit
        if ep = [] then none
        else
          let e : Int := ofDigits ep
          some (m, (if eneg then -e else e) - fp.length, l.dropWhile isDigit)
      else some (m, -(fp.length : Int), l)

mutual
/-- A value and what follows (section 3); `fuel` bounds the depth and the number of members. -/
def value : Nat → List Char → Option (Json × List Char)
  | 0, _ => none
  | fuel + 1, l =>
    match skipWs l with
    | [] => none
    | c :: r =>
      if c = '"' then do
        let (s, r) ← strBody r
        some (.str s, r)
      else if c = '{' then
        if (skipWs r).head? = some '}' then some (.obj [], (skipWs r).tail)
        else do
          let (ms, r) ← members fuel r
          some (.obj ms, r)
      else if c = '[' then
        if (skipWs r).head? = some ']' then some (.arr [], (skipWs r).tail)
        else do
          let (vs, r) ← elements fuel r
          some (.arr vs, r)
      else if (c :: r).take 4 = "true".toList then some (.bool true, r.drop 3)
      else if (c :: r).take 5 = "false".toList then some (.bool false, r.drop 4)
      else if (c :: r).take 4 = "null".toList then some (.null, r.drop 3)
      else do
        let (m, e, r) ← number (c :: r)
        some (.num m e, r)

/-- The members of an object up to its closing brace (section 4). -/
def members : Nat → List Char → Option (List (List Nat × Json) × List Char)
  | 0, _ => none
  | fuel + 1, l =>
    if (skipWs l).head? = some '"' then do
      let (k, r) ← strBody (skipWs l).tail
      if (skipWs r).head? = some ':' then do
        let (v, r) ← value fuel (skipWs r).tail
        if (skipWs r).head? = some ',' then do
          let (ms, r) ← members fuel (skipWs r).tail
          some ((k, v) :: ms, r)
        else if (skipWs r).head? = some '}' then some ([(k, v)], (skipWs r).tail)
        else none
      else none
    else none

/-- The elements of an array up to its closing bracket (section 5). -/
def elements : Nat → List Char → Option (List Json × List Char)
  | 0, _ => none
  | fuel + 1, l => do
    let (v, r) ← value fuel l
    if (skipWs r).head? = some ',' then do
      let (vs, r) ← elements fuel (skipWs r).tail
      some (v :: vs, r)
    else if (skipWs r).head? = some ']' then some ([v], (skipWs r).tail)
    else none
end

/-- The value of a JSON text (section 2), if it is one. -/
def parse (l : List Char) : Option Json :=
  match value (2 * l.length + 2) l with
  | some (v, r) => if skipWs r = [] then some v else none
  | none => none

end Spec.Json
