import Verif.Props.Pass
import Verif.Props.Wasi
import Verif.Props.Cli
import Verif.Model.Command
import Verif.Spec.File
/-
C38, C40: from the command line to the guest.
-/
namespace Verif.Props
open Verif.Model Verif.Spec Verif.Lemmas

/-- the words the guest is to be given: the name of the file, and the words of `--app-args` -/
def guestWords (o : Options) : List (List Char) :=
  o.wasmFile :: match o.appArgs with | some s => shellWords s | none => []

theorem argv_is_command_line (o : Options) : o.argv = (guestWords o).map utf8 := by
  unfold Options.argv guestWords
  cases o.appArgs with
  | none => rfl
  | some s => simp only [parseArgs_correct]

theorem args_get_id : hostFunc "args_get" = .wasi ⟨[.i32, .i32], [.i32]⟩ 9 := by
  have h : parseWasi "args_get" = some .argsGet := by decide +kernel
  have h2 : (WasiFn.argsGet).id = 9 := by decide +kernel
  simp only [hostFunc, h, h2]
  rfl

theorem args_sizes_get_id : hostFunc "args_sizes_get" = .wasi ⟨[.i32, .i32], [.i32]⟩ 10 := by
  have h : parseWasi "args_sizes_get" = some .argsSizesGet := by decide +kernel
  have h2 : (WasiFn.argsSizesGet).id = 10 := by decide +kernel
  simp only [hostFunc, h, h2]
  rfl

theorem pars (p q : BitVec 32) : par32 [⟨.i32, p⟩, ⟨.i32, q⟩] 0 = p ∧ par32 [⟨.i32, p⟩, ⟨.i32, q⟩] 1 = q := by
  constructor
  · simp only [par32, List.map_cons, List.map_nil, List.getD_cons_zero, Val.num, Cls.num]
    exact BitVec.eq_of_toNat_eq (by simp)
  · simp only [par32, List.map_cons, List.map_nil, List.getD_cons_succ, List.getD_cons_zero, Val.num, Cls.num]
    exact BitVec.eq_of_toNat_eq (by simp)

/-- **C38, C40**: a guest that imports `args_get` and calls it finds, behind the pointers it gets, the name of the WebAssembly file and
the words of `--app-args`, in this order, in UTF-8 and NUL-terminated (same remarks as for `args_get_correct`). -/
theorem guest_sees_command_line (N : Native) (o : Options) {t : FuncType} {id : Nat} (himp : hostFunc "args_get" = .wasi t id)
    (m : Mem) (w : N.W) (p q : BitVec 32) (hmem : m.data.length < 2 ^ 32)
    (h1 : p.toNat + 4 * ((guestWords o).length + 1) ≤ m.data.length)
    (h2 : q.toNat + ((guestWords o).map fun a => (utf8 a).length + 1).sum ≤ m.data.length)
    (hdis : p.toNat + 4 * (guestWords o).length ≤ q.toNat ∨ q.toNat + ((guestWords o).map fun a => (utf8 a).length + 1).sum ≤ p.toNat) :
    ∃ m', (o.host N).call id [⟨.i32, p⟩, ⟨.i32, q⟩] m w = .ok (some (some ⟨.i32, (0 : BitVec 32)⟩), m', w) ∧
      ∀ i a, (guestWords o)[i]? = some a →
        (m'.data.drop (u32At m' (p.toNat + 4 * i))).take ((utf8 a).length + 1) = utf8 a ++ [0] := by
  have hs : argsSize o.argv = ((guestWords o).map fun a => (utf8 a).length + 1).sum := by
    rw [argv_is_command_line, argsSize, List.map_map]; rfl
  have hl : o.argv.length = (guestWords o).length := by rw [argv_is_command_line]; simp
  obtain ⟨m', e, _, e2, _⟩ := args_get_correct m o.argv p q hmem (by rw [hl]; exact h1) (by rw [hs]; exact h2)
    (by rw [hl, hs]; exact hdis)
  have hid : id = 9 := by
    rw [args_get_id] at himp
    cases himp
    rfl
  subst hid
  refine ⟨m', ?_, fun i a hi => e2 i (utf8 a) (by rw [argv_is_command_line, List.getElem?_map, hi]; rfl)⟩
  obtain ⟨p1, p2⟩ := pars p q
  simp only [Options.host, passthrough, WasiFn.all, List.getElem?_cons_succ, List.getElem?_cons_zero, passCall, WasiFn.wants,
    List.map_cons, List.map_nil, if_true, passArm, p1, p2, pArgsGet, e]
  rfl

/-- **C38, C40**: and `args_sizes_get` tells how many these are and how much room they need. -/
theorem guest_sees_argument_sizes (N : Native) (o : Options) {t : FuncType} {id : Nat} (himp : hostFunc "args_sizes_get" = .wasi t id)
    (m : Mem) (w : N.W) (p q : BitVec 32) (hn : (guestWords o).length < 2 ^ 32)
    (hs : ((guestWords o).map fun a => (utf8 a).length + 1).sum < 2 ^ 32) (h1 : p.toNat + 4 ≤ m.data.length)
    (h2 : q.toNat + 4 ≤ m.data.length) (hdis : p.toNat + 4 ≤ q.toNat ∨ q.toNat + 4 ≤ p.toNat) :
    ∃ m', (o.host N).call id [⟨.i32, p⟩, ⟨.i32, q⟩] m w = .ok (some (some ⟨.i32, (0 : BitVec 32)⟩), m', w) ∧
      u32At m' p.toNat = (guestWords o).length ∧ u32At m' q.toNat = ((guestWords o).map fun a => (utf8 a).length + 1).sum := by
  have hs' : argsSize o.argv = ((guestWords o).map fun a => (utf8 a).length + 1).sum := by
    rw [argv_is_command_line, argsSize, List.map_map]; rfl
  have hl : o.argv.length = (guestWords o).length := by rw [argv_is_command_line]; simp
  obtain ⟨m', e, e1, e2, _⟩ := args_sizes_get_correct m o.argv p q (by rw [hl]; exact hn) (by rw [hs']; exact hs) h1 h2 hdis
  have hid : id = 10 := by
    rw [args_sizes_get_id] at himp
    cases himp
    rfl
  subst hid
  refine ⟨m', ?_, by rw [e1, hl], by rw [e2, hs']⟩
  obtain ⟨p1, p2⟩ := pars p q
  simp only [Options.host, passthrough, WasiFn.all, List.getElem?_cons_succ, List.getElem?_cons_zero, passCall, WasiFn.wants,
    List.map_cons, List.map_nil, if_true, passArm, p1, p2, pArgsSizesGet, e]
  rfl

/-- `chiwawa a.wasm --app-args 'x "y z"'` -/
example : ∃ t id, hostFunc "args_get" = .wasi t id ∧
    guestWords ⟨"a.wasm".toList, none, "", [], some "x \"y z\"".toList, false⟩ = ["a.wasm".toList, "x".toList, "y z".toList] :=
  ⟨⟨[.i32, .i32], [.i32]⟩, 9, args_get_id, by decide +kernel⟩

end Verif.Props
