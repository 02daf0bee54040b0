import Verif.Props.Linked
import Verif.Props.EndToEndEx
/-
C57: two instances with memories of their own.
-/
namespace Verif.Props
open Verif.Model Verif.Spec Verif.Lemmas
namespace LinkedEx

/-- `i32.load` at 0 -/
def peek : SFunc := .wasm ⟨[], [.i32]⟩ [] (.op (.const .i32 (0 : BitVec 32)) <| .op (.load .i32 0) .done)
/-- stores its argument at 0 -/
def poke : SFunc := .wasm ⟨[.i32], []⟩ []
  (.op (.const .i32 (0 : BitVec 32)) <| .op (.localGet 0) <| .op (.store .i32 0) .done)
/-- `memory.size` -/
def size : SFunc := .wasm ⟨[], [.i32]⟩ [] (.op .memSize .done)
/-- `memory.grow 1`, then `i32.load` at 0 -/
def grow : SFunc := .wasm ⟨[], [.i32]⟩ []
  (.op (.const .i32 (1 : BitVec 32)) <| .op .memGrow <| .op .drop <| .op (.const .i32 (0 : BitVec 32)) <| .op (.load .i32 0) .done)

/-- the exporting module -/
def progB : SProg := { H := Sample.host, types := [⟨[], [.i32]⟩, ⟨[.i32], []⟩], funcs := [peek, poke, size, grow] }

/-- the importing module: functions 0 to 3 are the other's; 4 calls `poke 5` and then `peek`, 5 calls `size`, 6 calls `grow` -/
def progA : SProg := { H := Sample.host, types := [⟨[], [.i32]⟩, ⟨[.i32], []⟩], funcs := [peek, poke, size, grow,
  .wasm ⟨[], [.i32]⟩ [] (.op (.const .i32 (5 : BitVec 32)) <| .op (.call 1) <| .op (.call 0) .done),
  .wasm ⟨[], [.i32]⟩ [] (.op (.call 2) .done), .wasm ⟨[], [.i32]⟩ [] (.op (.call 3) .done)] }

/-- the programs as loaded -/
def codeA : Prog := ((progA.compile []).getD ⟨[], []⟩)
def codeB : Prog := ((progB.compile []).getD ⟨[], []⟩)

/-- imported functions live in the other instance, number 0 -/
def home : Homes := fun f => if f < 4 then some 0 else none

/-- one page, which cannot grow, with 7 in front, and no page at all -/
def page7 : Mem := ⟨7 :: List.replicate 65535 0, some 1⟩
def noPage : Mem := Mem.new 0 none

def instA : Inst := ⟨some noPage, 0, [], [], []⟩
def instB : Inst := ⟨some page7, 0, [], [], []⟩

def envA : Env := envOf Sample.host true (fun _ => false) codeA false
def envB : Env := envOf Sample.host true (fun _ => false) codeB false

/-- a run of function `f` of the importing module, with these memories of other instances -/
def runA (L : Env → LDispatcher) (f : Nat) (others : List (Option Mem)) : Option (Res (List Val × List (Option Mem))) :=
  match LMachine.new (S := Sample.wasi) codeA home instA others () f [] with
  | .ok l => (l.run envA home (L envA) true 20).map fun r => r >>= fun e =>
      match e with | .done vs l => .ok (vs, l.others) | .ckpt l => .ok ([], l.others)
  | _ => none

/-- the runtime's own memory, empty at first, is no longer empty -/
def grownA (L : Env → LDispatcher) (f : Nat) (others : List (Option Mem)) : Bool :=
  match LMachine.new (S := Sample.wasi) codeA home instA others () f [] with
  | .ok l =>
    match l.run envA home (L envA) true 20 with
    | some (.ok (.done _ l)) => (l.m.inst.mem.map (!·.data.isEmpty)).getD false
    | _ => false
  | _ => false

/-- loads and stores of the imported functions work on the other instance's memory: 5 is stored at the front of it and read again -/
example (bs : List Byte) : runA lloopD 4 [some ⟨7 :: 0 :: 0 :: 0 :: bs, none⟩] =
    some (.ok ([⟨.i32, (5 : BitVec 32)⟩], [some ⟨5 :: 0 :: 0 :: 0 :: bs, none⟩])) := by rfl

/-- the values of a run -/
def values (L : Env → LDispatcher) (f : Nat) (others : List (Option Mem)) : Option (List Val) :=
  match runA L f others with
  | some (.ok (vs, _)) => some vs
  | _ => none

/-- the exporting instance with this memory -/
def storeB (m : Mem) : Store := storeOf ⟨some m, 0, [], [], []⟩

theorem page7_length : page7.data.length = 65536 := by
  show (7 :: List.replicate 65535 (0 : Byte)).length = 65536
  rw [List.length_cons, List.length_replicate]

theorem size_one {m : Mem} (h : m.data.length = 65536) : m.size = 1 := by
  unfold Mem.size
  rw [h]; rfl

theorem size_gives {m : Mem} (h : m.data.length = 65536) :
    Gives Sample.wasi progB (progB.info []) size [] (storeB m) () (.ok ([⟨.i32, (1 : BitVec 32)⟩], storeB m, ())) := by
  refine .ok (n := 5) ?_
  rw [← size_one h]
  rfl

theorem grow_fails {m : Mem} (h : m.data.length = 65536) (hm : m.max = some 1) : m.growInstr 1 = .ok (BitVec.allOnes 32, m) := by
  have h1 := size_one h
  unfold Mem.growInstr
  rw [if_neg (by decide)]
  unfold Mem.grow
  simp only [h1, hm, overMax]
  rfl

theorem grow_gives {bs : List Byte} (h : bs.length = 65532) :
    Gives Sample.wasi progB (progB.info []) grow [] (storeB ⟨7 :: 0 :: 0 :: 0 :: bs, some 1⟩) ()
      (.ok ([⟨.i32, (7 : BitVec 32)⟩], storeB ⟨7 :: 0 :: 0 :: 0 :: bs, some 1⟩, ())) := by
  have hg : Mem.growInstr ⟨7 :: 0 :: 0 :: 0 :: bs, some 1⟩ 1 = .ok (BitVec.allOnes 32, ⟨7 :: 0 :: 0 :: 0 :: bs, some 1⟩) :=
    grow_fails (by simp only [List.length_cons, h]) rfl
  have ho : ∀ (W : Type) (l : List Val) (w : W), opSem progB.H .memGrow [⟨.i32, (1 : BitVec 32)⟩]
      (⟨l, storeB ⟨7 :: 0 :: 0 :: 0 :: bs, some 1⟩, w⟩ : SSt W) = some (.ok ([⟨.i32, BitVec.allOnes 32⟩],
        ⟨l, storeB ⟨7 :: 0 :: 0 :: 0 :: bs, some 1⟩, w⟩)) := by
    intro W l w
    show some ((Mem.growInstr ⟨7 :: 0 :: 0 :: 0 :: bs, some 1⟩ 1).bind fun x => _) = _
    rw [hg]; rfl
  refine .ok (n := 9) ?_
  have he : ∀ (W : Type) (w : W) (k : WSeq) again call, ev (W := W) progB (progB.info []) again call (.op .memGrow k)
      [⟨.i32, (1 : BitVec 32)⟩] ⟨[], storeB ⟨7 :: 0 :: 0 :: 0 :: bs, some 1⟩, w⟩ =
        ev progB (progB.info []) again call k [⟨.i32, BitVec.allOnes 32⟩] ⟨[], storeB ⟨7 :: 0 :: 0 :: 0 :: bs, some 1⟩, w⟩ := by
    intro W w k again call
    rw [ev]
    · simp only [ho]
      rfl
    all_goals nofun
  refine Eq.trans (congrArg (finishCall 1) (he Sample.wasi.W () _ _ _)) ?_
  rfl

/-- **C57 is false of the code.**  The other instance has a page of memory, and its function `size` says so; called from an instance
without memory it answers 0, whatever the other memory is: `memory.size` reads memory 0 of the runtime's instance
(handlers.rs:1967-1985), only loads and stores use the function's own. -/
theorem foreign_memory_size_violated :
    (∀ m : Mem, m.data.length = 65536 →
      Gives Sample.wasi progB (progB.info []) size [] (storeB m) () (.ok ([⟨.i32, (1 : BitVec 32)⟩], storeB m, ()))) ∧
    (∀ m, runA lloopD 5 [some m] = some (.ok ([⟨.i32, (0 : BitVec 32)⟩], [some m]))) ∧
    (∀ m, runA ltcoD 5 [some m] = some (.ok ([⟨.i32, (0 : BitVec 32)⟩], [some m]))) :=
  ⟨fun _ h => size_gives h, fun _ => rfl, fun _ => rfl⟩

/-- **C57 is false of the code.**  The other instance's only page cannot grow and begins with 7.  Its function `grow` asks for a page,
which it does not get, and reads the 7.  Called from another instance it gets a page in the memory of *that* instance, and reads
there: `memory.grow` grows memory 0 of the runtime's instance and points the frame's raw pointer to it (handlers.rs:2003-2009). -/
theorem foreign_memory_grow_violated :
    Gives Sample.wasi progB (progB.info []) grow [] (storeB page7) () (.ok ([⟨.i32, (7 : BitVec 32)⟩], storeB page7, ())) ∧
    values lloopD 6 [some page7] = some [⟨.i32, (0 : BitVec 32)⟩] ∧ values ltcoD 6 [some page7] = some [⟨.i32, (0 : BitVec 32)⟩] ∧
    grownA lloopD 6 [some page7] = true ∧ grownA ltcoD 6 [some page7] = true := by
  refine ⟨?_, by decide +kernel, by decide +kernel, by decide +kernel, by decide +kernel⟩
  exact grow_gives (bs := List.replicate 65532 0) (List.length_replicate ..)

/-- `linked_instances_partial` applies to module c of `LinkEx`, whose imported function belongs to an instance with a memory -/
example (m : Mem) : ∃ L, instantiateWith LinkEx.objects (LinkEx.modul LinkEx.fileC) = .ok L ∧
    ∃ l : LMachine Sample.wasi, LMachine.new L.prog (homesOf (fun _ _ => some 0) (LinkEx.modul LinkEx.fileC)) L.inst [some m] () 1 [] = .ok l ∧
      LAnswers (envOf Sample.host true (fun _ => false) L.prog L.hasWasi) (homesOf (fun _ _ => some 0) (LinkEx.modul LinkEx.fileC))
        (ltcoD (envOf Sample.host true (fun _ => false) L.prog L.hasWasi)) true l
        (.ok ([⟨.i32, (4 : BitVec 32)⟩], storeOf L.inst, ())) [some m] := by
  obtain ⟨L, hL⟩ := LinkEx.linked
  have hg : L.inst.globals.map (·.value.cls) = [] := by
    have := LinkEx.linkedGlobals hL
    rw [this]; rfl
  refine ⟨L, hL, ?_⟩
  obtain ⟨l, hl, h, _⟩ := linked_instances_partial (S := Sample.wasi) hL LinkEx.sources LinkEx.accepted hg (f := 1) rfl (args := []) rfl .tco
    true true () (fun _ _ => some 0) [some m]
  exact ⟨l, hl, h _ (LinkEx.four_gives _)⟩

/-! ## The hypotheses of `foreign_memory_partial` are met -/

theorem accepted : Accepted Sample.wasi progB [] := by
  have mem : ∀ {t ls b}, SFunc.wasm t ls b ∈ progB.funcs → SFunc.wasm t ls b = peek ∨ SFunc.wasm t ls b = poke ∨
      SFunc.wasm t ls b = size ∨ SFunc.wasm t ls b = grow := by
    intro t ls b h
    simpa [progB] using h
  refine accepted_of_text (fun t ls b h => ?_) (fun t ls b h => ?_) (fun t id h => ?_) (fun t id h => ?_)
  · rcases mem h with h | h | h | h <;> cases h <;>
      exact ⟨⟨by simp [WSeq.Proper, isBracket], _, rfl, by decide⟩, by decide +kernel, by decide +kernel, by decide +kernel⟩
  · rcases mem h with h | h | h | h <;> cases h <;> exact ⟨by decide, by simp, fun c => by cases c <;> decide⟩
  · simp [progB, peek, poke, size, grow] at h
  · simp [progB, peek, poke, size, grow] at h

theorem loadedB : progB.compile [] = some codeB := by
  have : (progB.compile []).isSome = true := by decide +kernel
  unfold codeB
  cases h : progB.compile [] with
  | none => rw [h] at this; cases this
  | some P => rfl

/-- `poke` as a function of the exporting instance, with any memory -/
theorem pokeStart (m : Mem) (v : BitVec 32) :
    Start Sample.wasi envB progB [] ⟨some m, 0, [], [], []⟩ 1 ⟨[.i32], []⟩ []
      (.op (.const .i32 (0 : BitVec 32)) <| .op (.localGet 0) <| .op (.store .i32 0) .done) [⟨.i32, v⟩] :=
  ⟨rfl, loadedB, accepted, fun t id h => by simp [progB, peek, poke, size, grow] at h, rfl, rfl, rfl⟩

/-- the importing instance in function 4, about to call `poke` -/
def caller (m : Mem) : LMachine Sample.wasi :=
  match LMachine.new (S := Sample.wasi) codeA home instA [some m] () 4 [] with
  | .ok l => l
  | _ => ⟨⟨RegFile.empty, [], instA, (), 0⟩, [], []⟩

/-- what WebAssembly says of `poke 5` -/
theorem poke_gives (bs : List Byte) : Gives Sample.wasi progB (progB.info []) poke [⟨.i32, (5 : BitVec 32)⟩]
    (storeB ⟨7 :: 0 :: 0 :: 0 :: bs, none⟩) () (.ok ([], storeB ⟨5 :: 0 :: 0 :: 0 :: bs, none⟩, ())) := .ok (n := 5) rfl

/-- called from the importing instance it writes 5 into the memory of the exporting one, and nowhere else -/
example (bs : List Byte) : ∃ l1 n looks, (caller ⟨7 :: 0 :: 0 :: 0 :: bs, none⟩).doInvoke codeA home true 1 [⟨.i32, (5 : BitVec 32)⟩] [] =
      .ok (.running l1) ∧ l1.round envA home (lloopD envA) true n = some (.ok (.running
        ⟨{ (caller ⟨7 :: 0 :: 0 :: 0 :: bs, none⟩).m with looks := looks }, [none], [some ⟨5 :: 0 :: 0 :: 0 :: bs, none⟩]⟩)) := by
  obtain ⟨l1, h1, h2, _⟩ := foreign_memory_partial (S := Sample.wasi) (E := envA) (EB := envB) (fun _ => rfl) .loop true
    (pokeStart ⟨7 :: 0 :: 0 :: 0 :: bs, none⟩ 5) rfl rfl (home := home) (f := 1) (k := 0) (l := caller ⟨7 :: 0 :: 0 :: 0 :: bs, none⟩)
    rfl rfl rfl rfl rfl []
  obtain ⟨_, _, n, looks, hr⟩ := h2 _ _ _ (poke_gives bs)
  exact ⟨l1, n, looks, h1, hr⟩

end LinkedEx
end Verif.Props
