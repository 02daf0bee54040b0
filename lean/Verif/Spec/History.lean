import Verif.Spec.File
import Verif.Spec.WebAssembly
import Verif.Model.Embed
/-
What a sequence of calls on one instance of a module does, according to the WebAssembly rules: every call starts in the store
the one before has left, also if that one trapped.
-/
namespace Verif.Spec
open Verif.Model

/-- what the caller learns -/
inductive Outcome
  | values (vs : List Val)
  /-- the call trapped, or there is no such function, or it takes another number of arguments -/
  | error
  /-- the program asked for the end of the process -/
  | exit (code : BitVec 32)

/-- the one call `r`, begun in store `st` and outside world `w`: its outcome, and the store and outside world it leaves -/
inductive Reply (S : Wasi) (A : SMod) (H : FloatHost) (st : Store) (w : S.W) (r : Request) : Outcome → Store → S.W → Prop
  | returns {f F vs st1 w1} (he : (r.name, .func f) ∈ A.exports) (hf : (A.source H).funcs[f]? = some F)
      (ha : r.args.map (·.cls) = F.type.params)
      (h : Call S (A.source H) ((A.source H).info A.globalTypes) F r.args st w (.ok vs st1 w1)) : Reply S A H st w r (.values vs) st1 w1
  | traps {f F st1 w1} (he : (r.name, .func f) ∈ A.exports) (hf : (A.source H).funcs[f]? = some F)
      (ha : r.args.map (·.cls) = F.type.params)
      (h : Call S (A.source H) ((A.source H).info A.globalTypes) F r.args st w (.trap st1 w1)) : Reply S A H st w r .error st1 w1
  | exits {f F c st1 w1} (he : (r.name, .func f) ∈ A.exports) (hf : (A.source H).funcs[f]? = some F)
      (ha : r.args.map (·.cls) = F.type.params)
      (h : Call S (A.source H) ((A.source H).info A.globalTypes) F r.args st w (.exit c st1 w1)) : Reply S A H st w r (.exit c) st1 w1
  /-- nothing happens -/
  | refused
      (h : ∀ f F, (r.name, .func f) ∈ A.exports → (A.source H).funcs[f]? = some F → r.args.length ≠ F.type.params.length) :
      Reply S A H st w r .error st w

/-- the calls `rs`, begun in store `st` and outside world `w`, have outcomes `os` and leave the last two -/
inductive History (S : Wasi) (A : SMod) (H : FloatHost) :
    Store → S.W → List Request → List Outcome → Store → S.W → Prop
  | nil {st w} : History S A H st w [] [] st w
  | next {st w r rs o st1 w1 os st2 w2} (h : Reply S A H st w r o st1 w1) (hs : History S A H st1 w1 rs os st2 w2) :
      History S A H st w (r :: rs) (o :: os) st2 w2

/-- A call with arguments of the right types of a function of the module's own, or one that is to be refused. -/
def Proper (A : SMod) (H : FloatHost) (r : Request) : Prop :=
  (∃ f t ls b, (r.name, .func f) ∈ A.exports ∧ (A.source H).funcs[f]? = some (.wasm t ls b) ∧ r.args.map (·.cls) = t.params) ∨
  ∀ f F, (r.name, .func f) ∈ A.exports → (A.source H).funcs[f]? = some F → r.args.length ≠ F.type.params.length

/-- none of the calls that are reached leaves what the interpreter is compared with (see `Off`) -/
def NeverOdd (S : Wasi) (A : SMod) (H : FloatHost) (st : Store) (w : S.W) (rs : List Request) : Prop :=
  ∀ before r after os st1 w1 f F, rs = before ++ r :: after → History S A H st w before os st1 w1 → (r.name, .func f) ∈ A.exports →
    (A.source H).funcs[f]? = some F → ¬ Call S (A.source H) ((A.source H).info A.globalTypes) F r.args st1 w1 (.odd .deviates)

/-- what the caller learns from the interpreter's answer -/
def Outcome.of : Res (List Val) → Outcome
  | .ok vs => .values vs
  | .trap (.processExit c) => .exit c
  | _ => .error

end Verif.Spec
