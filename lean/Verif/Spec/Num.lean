/-
Specification of WebAssembly integer operators, written from the WebAssembly core specification
(§4.3 "Numerics"): integers are naturals below `2^N`, `none` means "undefined result" (the instruction traps).
Nothing here refers to the model of the interpreter.
-/
namespace Verif.Spec

/-- Names of the binary integer operators `iNN.xxx` (shared by i32 and i64). -/
inductive IBinOp
  | add | sub | mul | divS | divU | remS | remU | and | or | xor | shl | shrS | shrU | rotl | rotr
  deriving DecidableEq, Repr

/-- Names of the integer comparison operators. -/
inductive IRelOp
  | eq | ne | ltS | ltU | gtS | gtU | leS | leU | geS | geU
  deriving DecidableEq, Repr

/-- Names of the unary integer operators (`eqz` is a test operator, see `eqz`). -/
inductive IUnOp
  | clz | ctz | popcnt | extend8S | extend16S | extend32S
  deriving DecidableEq, Repr

/-- signed interpretation of an N-bit integer -/
def signed (N i : Nat) : Int := if i < 2 ^ (N - 1) then (i : Int) else (i : Int) - 2 ^ N

/-- inverse of `signed`: two's complement encoding modulo `2^N` -/
def unsigned (N : Nat) (z : Int) : Nat := (z % 2 ^ N).toNat

/-- build the natural below `2^N` whose bit `k` is `f k` -/
def ofBits (N : Nat) (f : Nat → Bool) : Nat :=
  (List.range N).foldl (fun acc k => acc + (if f k then 2 ^ k else 0)) 0

/-- WebAssembly numerics: binary operators. -/
def ibinop (N : Nat) : IBinOp → Nat → Nat → Option Nat
  | .add, i, j => some ((i + j) % 2 ^ N)
  | .sub, i, j => some (unsigned N ((i : Int) - j))
  | .mul, i, j => some ((i * j) % 2 ^ N)
  | .divU, i, j => if j = 0 then none else some (i / j)
  | .divS, i, j =>
    if j = 0 then none
    else if (signed N i).tdiv (signed N j) = 2 ^ (N - 1) then none
    else some (unsigned N ((signed N i).tdiv (signed N j)))
  | .remU, i, j => if j = 0 then none else some (i % j)
  | .remS, i, j =>
    if j = 0 then none
    else some (unsigned N (signed N i - signed N j * (signed N i).tdiv (signed N j)))
  | .and, i, j => some (ofBits N fun k => i.testBit k && j.testBit k)
  | .or, i, j => some (ofBits N fun k => i.testBit k || j.testBit k)
  | .xor, i, j => some (ofBits N fun k => i.testBit k != j.testBit k)
  | .shl, i, j => some ((i * 2 ^ (j % N)) % 2 ^ N)
  | .shrU, i, j => some (i / 2 ^ (j % N))
  | .shrS, i, j => some (unsigned N (signed N i / 2 ^ (j % N)))
  | .rotl, i, j => some (ofBits N fun k => i.testBit ((k + N - j % N) % N))
  | .rotr, i, j => some (ofBits N fun k => i.testBit ((k + j % N) % N))

/-- WebAssembly numerics: comparisons, as booleans. -/
def irelop (N : Nat) : IRelOp → Nat → Nat → Bool
  | .eq, i, j => decide (i = j)
  | .ne, i, j => decide (i ≠ j)
  | .ltU, i, j => decide (i < j)
  | .gtU, i, j => decide (j < i)
  | .leU, i, j => decide (i ≤ j)
  | .geU, i, j => decide (j ≤ i)
  | .ltS, i, j => decide (signed N i < signed N j)
  | .gtS, i, j => decide (signed N j < signed N i)
  | .leS, i, j => decide (signed N i ≤ signed N j)
  | .geS, i, j => decide (signed N j ≤ signed N i)

/-- `n` is the number of leading zero bits of the N-bit integer `i`. -/
def IsClz (N i n : Nat) : Prop :=
  n ≤ N ∧ (∀ k, k < n → i.testBit (N - 1 - k) = false) ∧ (n < N → i.testBit (N - 1 - n) = true)

/-- `n` is the number of trailing zero bits of the N-bit integer `i`. -/
def IsCtz (N i n : Nat) : Prop :=
  n ≤ N ∧ (∀ k, k < n → i.testBit k = false) ∧ (n < N → i.testBit n = true)

/-- number of set bits among the low `N` bits -/
def popcnt (N i : Nat) : Nat := (List.range N).countP fun k => i.testBit k

/-- sign extension of the low `M` bits to `N` bits -/
def extendS (M N i : Nat) : Nat := unsigned N (signed M (i % 2 ^ M))

/-- relational specification of the unary operators: `r` is an admissible result of `op` on `i` -/
def IUnop (N : Nat) : IUnOp → Nat → Nat → Prop
  | .clz, i, r => IsClz N i r
  | .ctz, i, r => IsCtz N i r
  | .popcnt, i, r => r = popcnt N i
  | .extend8S, i, r => r = extendS 8 N i
  | .extend16S, i, r => r = extendS 16 N i
  | .extend32S, i, r => r = extendS 32 N i

end Verif.Spec
