import Verif.Lemmas.Linked
import Verif.Lemmas.CompFits
import Verif.Props.Quiet
import Verif.Lemmas.Module
import Verif.Lemmas.SymMain
import Verif.Props.Compiled
import Verif.Spec.Link
/-
A function that uses nothing of its instance but its memory, by loads and stores, run by the runtime of another instance.
-/
namespace Verif.Lemmas
open Verif.Model Verif.Spec Verif.Props

section
variable (iA : Inst) (pA : Option Nat) (k : Nat) (oth : List (Option Mem))

/-- the runtime's state for a state of the foreign instance -/
def backV (s : VM) : VM := { s with inst := iA, memPtr := pA }

/-- and the other memories -/
def sideV (s : VM) : Side := ⟨some k, oth.set k s.inst.mem⟩

/-- after a handler -/
def backO : Out → Out
  | .cont s => .cont (backV iA pA s)
  | .yield y s => .yield y (backV iA pA s)

/-- the dispatcher's state -/
def backD (d : DState) : DState := { d with vm := backV iA pA d.vm }

/-- the end of a dispatcher call -/
def backF : Final → Final × Side
  | .halt d => (.halt (backD iA pA d), sideV k oth d.vm)
  | .yield y d => (.yield y (backD iA pA d), sideV k oth d.vm)
  | .ckpt d => (.ckpt (backD iA pA d), sideV k oth d.vm)

theorem read_back (s : VM) (c : Cls) (o : Opnd c) : (backV iA pA s).read c o = s.read c o := by cases o <;> rfl

theorem write_back (s : VM) (c : Cls) (d : Dst) (v : c.Carrier) :
    (backV iA pA s).write c d v = s.write c d v >>= fun s' => .ok (backV iA pA s') := by
  cases d with
  | reg i =>
    simp only [VM.write, backV]
    cases s.rf.set c i v <;> rfl
  | loc i =>
    by_cases h : i < s.locals.length
    · simp only [VM.write, backV, h, if_true]; rfl
    · simp only [VM.write, backV, h, if_false]; rfl

theorem write_inst {s s' : VM} {c : Cls} {d : Dst} {v : c.Carrier} (h : s.write c d v = .ok s') :
    s'.inst = s.inst ∧ s'.memPtr = s.memPtr := by
  cases d with
  | reg i =>
    obtain ⟨rf, _, h⟩ := bind_eq_ok h
    cases h; exact ⟨rfl, rfl⟩
  | loc i =>
    simp only [VM.write] at h
    split at h
    · cases h; exact ⟨rfl, rfl⟩
    · cases h

theorem branch_back (s : VM) (d t : Nat) (src dst : List Reg) :
    (backV iA pA s).branch d t src dst = s.branch d t src dst >>= fun s' => .ok (backV iA pA s') := by
  simp only [VM.branch, backV]
  cases s.rf.copyIf src dst <;> rfl

theorem branch_inst {s s' : VM} {d t : Nat} {src dst : List Reg} (h : s.branch d t src dst = .ok s') :
    s'.inst = s.inst ∧ s'.memPtr = s.memPtr := by
  obtain ⟨rf, _, h⟩ := bind_eq_ok h
  cases h; exact ⟨rfl, rfl⟩

/-- what a handler of such code does to the instance, and where it can yield to -/
structure Leaf (i : Instr) (s : VM) (o : Out) : Prop where
  ptr : s.memPtr = s.inst.ptr → o.after.memPtr = o.after.inst.ptr
  inst : ∃ m, o.after.inst = { s.inst with mem := m }
  ret : ∀ y s', o = .yield y s' → y = .ret
  same : iNeeds i = 0 → o.after.inst = s.inst

theorem Leaf.plain {i : Instr} {s s' : VM} (h1 : s'.inst = s.inst) (h2 : s'.memPtr = s.memPtr) : Leaf i s (.cont s') :=
  ⟨fun h => by simp only [Out.after, h1, h2, h], ⟨s.inst.mem, h1⟩, (fun y s' h => by cases h), fun _ => h1⟩

theorem step_leaf {H : FloatHost} {P : Prog} {len : Nat} {s : VM} {i : Instr} {o : Out} (hi : iNeeds i ≤ 1)
    (h : step H P len s i = .ok o) : Leaf i s o := by
  cases i <;> first | (simp [iNeeds] at hi; done) | skip
  case op1 =>
    obtain ⟨a, _, h⟩ := bind_eq_ok h
    obtain ⟨r, _, h⟩ := bind_eq_ok h
    obtain ⟨s', hw, h⟩ := bind_eq_ok h
    cases h; exact .plain (write_inst hw).1 (write_inst hw).2
  case op2 =>
    obtain ⟨a, _, h⟩ := bind_eq_ok h
    obtain ⟨b, _, h⟩ := bind_eq_ok h
    obtain ⟨r, _, h⟩ := bind_eq_ok h
    obtain ⟨s', hw, h⟩ := bind_eq_ok h
    cases h; exact .plain (write_inst hw).1 (write_inst hw).2
  case load =>
    obtain ⟨a, _, h⟩ := bind_eq_ok h
    obtain ⟨b, _, h⟩ := bind_eq_ok h
    obtain ⟨r, _, h⟩ := bind_eq_ok h
    obtain ⟨s', hw, h⟩ := bind_eq_ok h
    cases h; exact .plain (write_inst hw).1 (write_inst hw).2
  case store =>
    obtain ⟨a, _, h⟩ := bind_eq_ok h
    obtain ⟨b, _, h⟩ := bind_eq_ok h
    obtain ⟨r, hr, h⟩ := bind_eq_ok h
    obtain ⟨m, _, h⟩ := bind_eq_ok h
    cases h
    refine ⟨fun hp => ?_, ⟨some m, rfl⟩, (fun y s' h => by cases h), fun h => by simp [iNeeds] at h⟩
    unfold VM.rawMem at hr
    split at hr
    · rename_i m0 hm
      simp only [Out.after, VM.setMem, VM.next, Inst.ptr, hp, hm, Option.map_some]
    · cases hr
  case select =>
    obtain ⟨a, _, h⟩ := bind_eq_ok h
    obtain ⟨b, _, h⟩ := bind_eq_ok h
    obtain ⟨r, _, h⟩ := bind_eq_ok h
    cases h; exact .plain rfl rfl
  case refLocalGet =>
    simp only [step] at h
    split at h
    · cases h
    · split at h
      · obtain ⟨r, _, h⟩ := bind_eq_ok h
        cases h; exact .plain rfl rfl
      · cases h; exact .plain rfl rfl
  case refLocalSet =>
    obtain ⟨a, _, h⟩ := bind_eq_ok h
    obtain ⟨s', hw, h⟩ := bind_eq_ok h
    cases h; exact .plain (write_inst hw).1 (write_inst hw).2
  case refNull =>
    obtain ⟨r, _, h⟩ := bind_eq_ok h
    cases h; exact .plain rfl rfl
  case refIsNull =>
    obtain ⟨a, _, h⟩ := bind_eq_ok h
    obtain ⟨r, _, h⟩ := bind_eq_ok h
    cases h; exact .plain rfl rfl
  case ret =>
    obtain ⟨r, _, h⟩ := bind_eq_ok h
    cases h
    exact ⟨fun h => h, ⟨s.inst.mem, rfl⟩, (fun y s' h => by cases h; rfl), fun _ => rfl⟩
  case jump => cases h; exact .plain rfl rfl
  case block => cases h; exact .plain rfl rfl
  case ite =>
    obtain ⟨c, _, h⟩ := bind_eq_ok h
    split at h
    · cases h; exact .plain rfl rfl
    · split at h
      · cases h; exact .plain rfl rfl
      · cases h; exact .plain rfl rfl
  case fin =>
    simp only [step] at h
    split at h
    · obtain ⟨c, _, h⟩ := bind_eq_ok h
      cases h; exact .plain rfl rfl
    · obtain ⟨c, _, h⟩ := bind_eq_ok h
      split at h
      · obtain ⟨c, _, h⟩ := bind_eq_ok h
        cases h; exact .plain rfl rfl
      · cases h; exact .plain rfl rfl
  case br =>
    obtain ⟨s', hw, h⟩ := bind_eq_ok h
    cases h; exact .plain (branch_inst hw).1 (branch_inst hw).2
  case brIf =>
    obtain ⟨c, _, h⟩ := bind_eq_ok h
    split at h
    · cases h; exact .plain rfl rfl
    · obtain ⟨s', hw, h⟩ := bind_eq_ok h
      cases h; exact .plain (branch_inst hw).1 (branch_inst hw).2
  case brTable =>
    obtain ⟨c, _, h⟩ := bind_eq_ok h
    obtain ⟨s', hw, h⟩ := bind_eq_ok h
    cases h; exact .plain (branch_inst hw).1 (branch_inst hw).2
  case nop => cases h; exact .plain rfl rfl
  case unreachable => cases h

/-- the handlers that use nothing of the instance -/
theorem step_back {H : FloatHost} {P P' : Prog} {len : Nat} {s : VM} {i : Instr} (hi : iNeeds i = 0) :
    step H P len (backV iA pA s) i = step H P' len s i >>= fun o => .ok (backO iA pA o) := by
  cases i <;> first | (simp [iNeeds] at hi; done) | skip
  case op1 op d x =>
    simp only [step, read_back, write_back]
    cases s.read op.src x with
    | ok a =>
      simp only [Res.bind_ok]
      cases op.eval H a with
      | ok r =>
        simp only [Res.bind_ok]
        cases s.write op.dst d r <;> rfl
      | _ => rfl
    | _ => rfl
  case op2 op d x y =>
    simp only [step, read_back, write_back]
    cases s.read op.src x with
    | ok a =>
      simp only [Res.bind_ok]
      cases s.read op.src y with
      | ok b =>
        simp only [Res.bind_ok]
        cases op.eval H a b with
        | ok r =>
          simp only [Res.bind_ok]
          cases s.write op.dst d r <;> rfl
        | _ => rfl
      | _ => rfl
    | _ => rfl
  case select c d v1 v2 cond =>
    simp only [step, backV]
    cases s.rf.get .i32 cond with
    | ok a =>
      simp only [Res.bind_ok]
      cases s.rf.get c (if a ≠ (0 : BitVec 32) then v1 else v2) with
      | ok r =>
        simp only [Res.bind_ok]
        cases s.rf.set c d r <;> rfl
      | _ => rfl
    | _ => rfl
  case refLocalGet d l =>
    simp only [step, backV]
    split
    · rfl
    · split
      · rename_i v _ h
        cases s.rf.set .ref d (h ▸ v.v) <;> rfl
      · rfl
  case refLocalSet x l =>
    simp only [step, write_back]
    rw [show (backV iA pA s).rf = s.rf from rfl]
    cases s.rf.get .ref x with
    | ok r =>
      simp only [Res.bind_ok]
      cases s.write .ref (.loc l) r <;> rfl
    | _ => rfl
  case refNull d =>
    simp only [step, backV]
    cases s.rf.set .ref d Ref.null <;> rfl
  case refIsNull d x =>
    simp only [step, backV]
    cases s.rf.get .ref x with
    | ok r =>
      simp only [Res.bind_ok]
      cases s.rf.set .i32 d (if r = Ref.null then (1 : BitVec 32) else (0 : BitVec 32)) <;> rfl
    | _ => rfl
  case ret rs =>
    simp only [step, backV]
    cases cap8 rs <;> rfl
  case jump => rfl
  case block => rfl
  case ite c e he =>
    simp only [step, backV]
    cases s.rf.get .i32 c with
    | ok r =>
      simp only [Res.bind_ok]
      split
      · rfl
      · split <;> rfl
    | _ => rfl
  case fin src dst =>
    by_cases h : s.labels.length ≤ 1
    · simp only [step, backV, h, if_true]
      cases cap8 src <;> rfl
    · simp only [step, backV, h, if_false]
      cases s.rf.copyRegs src dst with
      | ok rf =>
        simp only [Res.bind_ok]
        by_cases h : len ≤ s.pc + 1 ∧ s.labels.tail.length = 1
        · simp only [h, and_self, if_true]
          cases cap8 src <;> rfl
        · simp only [h, if_false]; rfl
      | _ => rfl
  case br d t src dst =>
    simp only [step, branch_back]
    cases s.branch d t src dst <;> rfl
  case brIf d t c src dst =>
    simp only [step, branch_back]
    rw [show (backV iA pA s).rf = s.rf from rfl]
    cases s.rf.get .i32 c with
    | ok r =>
      simp only [Res.bind_ok]
      split
      · rfl
      · cases s.branch d t src dst <;> rfl
    | _ => rfl
  case brTable ts d c src =>
    simp only [step, branch_back]
    rw [show (backV iA pA s).rf = s.rf from rfl]
    cases s.rf.get .i32 c with
    | ok r =>
      simp only [Res.bind_ok]
      generalize (ts[BitVec.toNat (w := 32) r]?).getD d = t
      cases s.branch t.1 t.2.1 src t.2.2 <;> rfl
    | _ => rfl
  case nop => rfl
  case unreachable => rfl

/-- the raw pointer of the foreign frame reaches the memory of the foreign instance -/
theorem raw_back {s : VM} (hp : s.memPtr = s.inst.ptr) : ((backV iA pA s).swapIn s.inst.mem).rawMem = s.rawMem := by
  unfold VM.rawMem VM.swapIn
  cases hm : s.inst.mem with
  | none => rfl
  | some m =>
    simp only [hp, Inst.ptr, hm, Option.map_some, if_true]

/-- One handler of such code, run by the runtime of another instance, does what it does in its own instance, and only there. -/
theorem lstep_foreign {H : FloatHost} {P P' : Prog} {len : Nat} {s : VM} {i : Instr} (hk : k < oth.length) (hi : iNeeds i ≤ 1)
    (hp : s.memPtr = s.inst.ptr) :
    lstep H P len (backV iA pA s) (sideV k oth s) i =
      step H P' len s i >>= fun o => .ok (backO iA pA o, sideV k oth o.after) := by
  have hmem : (sideV k oth s).mem k = s.inst.mem := by
    simp only [Side.mem, sideV, List.getElem?_set_self hk, Option.join_some]
  by_cases hr : i.raw = true
  · have hset : ∀ m, (oth.set k s.inst.mem).set k m = oth.set k m := fun m => List.set_set ..
    simp only [lstep, sideV, hr]
    rw [show Side.mem ⟨some k, oth.set k s.inst.mem⟩ k = s.inst.mem from hmem]
    simp only [hset]
    cases i <;> first | (simp [Instr.raw] at hr; done) | skip
    case load op d a off =>
      simp only [step, raw_back _ _ hp]
      rw [show ((backV iA pA s).swapIn s.inst.mem).read .i32 a = s.read .i32 a from by cases a <;> rfl]
      cases s.read .i32 a with
      | ok p =>
        simp only [Res.bind_ok]
        cases s.rawMem with
        | ok m =>
          simp only [Res.bind_ok]
          cases m.load op p off with
          | ok v =>
            simp only [Res.bind_ok]
            cases d with
            | reg j =>
              simp only [VM.write, VM.swapIn, backV]
              cases s.rf.set op.cls j v <;> rfl
            | loc j =>
              by_cases h : j < s.locals.length
              · simp only [VM.write, VM.swapIn, backV, h, if_true]; rfl
              · simp only [VM.write, VM.swapIn, backV, h, if_false]; rfl
          | _ => rfl
        | _ => rfl
      | _ => rfl
    case store op a v off =>
      simp only [step, raw_back _ _ hp]
      rw [show ((backV iA pA s).swapIn s.inst.mem).read .i32 a = s.read .i32 a from by cases a <;> rfl,
        show ((backV iA pA s).swapIn s.inst.mem).rf = s.rf from rfl]
      cases s.read .i32 a with
      | ok p =>
        simp only [Res.bind_ok]
        cases s.rf.get op.cls v with
        | ok x =>
          simp only [Res.bind_ok]
          cases s.rawMem with
          | ok m =>
            simp only [Res.bind_ok]
            cases m.store op p off x <;> rfl
          | _ => rfl
        | _ => rfl
      | _ => rfl
  · have hr' : i.raw = false := by simpa using hr
    have h0 : iNeeds i = 0 := by
      cases i <;> first | rfl | (simp [iNeeds] at hi; done) | (simp [Instr.raw] at hr'; done)
    have hg : i.grows = false := by
      cases i <;> first | rfl | (simp [iNeeds] at hi; done)
    rw [lstep_own (.inr hr'), step_back iA pA (P' := P') h0, hg, withR]
    cases hs : step H P' len s i with
    | ok o =>
      have he := (step_leaf hi hs).same h0
      simp only [Res.bind_ok, sideV, he]
      rfl
    | _ => rfl

theorem poll_back (E : Env) (P' : Prog) (d : DState) :
    poll E (backD iA pA d) = ((poll { E with P := P' } d).1, backD iA pA (poll { E with P := P' } d).2) := by
  unfold poll
  cases he : d.enable with
  | false => simp [backD, he]
  | true =>
    cases ha : E.atomics with
    | true => simp [backD, he, ha]
    | false =>
      by_cases hc : d.counter + 1#32 &&& 1023#32 = 0#32
      · cases hw : E.hasWasi <;> simp [backD, he, ha, hc, hw]
      · simp [backD, he, ha, hc]

/-- the loop dispatcher on such code -/
theorem lloop_foreign {E : Env} {P' : Prog} {code : List Instr} (hk : k < oth.length) (hc : ∀ i ∈ code, iNeeds i ≤ 1) :
    ∀ (n : Nat) (d : DState), d.vm.memPtr = d.vm.inst.ptr →
      lloopRun E code n (backD iA pA d) (sideV k oth d.vm) =
        (loopRun { E with P := P' } code n d).map fun r => r >>= fun fin => .ok (backF iA pA k oth fin)
  | 0, _, _ => rfl
  | n + 1, d, hp => by
    rw [lloopRun, loopRun, poll_back iA pA E P']
    have hvm := poll_vm { E with P := P' } d
    generalize poll { E with P := P' } d = q at hvm
    obtain ⟨b, d1⟩ := q
    simp only at hvm
    rw [← hvm] at hp ⊢
    cases b with
    | true => rfl
    | false =>
      simp only
      rw [show (backD iA pA d1).vm.pc = d1.vm.pc from rfl]
      cases hi : code[d1.vm.pc]? with
      | none =>
        rw [show (backD iA pA d1).vm.labels = d1.vm.labels from rfl]
        match hl : d1.vm.labels with
        | [] => rfl
        | [_] => rfl
        | l :: l2 :: rest =>
          simp only
          split
          · rfl
          · exact lloop_foreign hk hc n { d1 with vm := { d1.vm with
                  labels := l2 :: rest, pc := if l.isLoop then d1.vm.pc + 1 else l.returnIp } } hp
      | some i =>
        have hn := hc i (List.mem_of_getElem? hi)
        rw [show (backD iA pA d1).vm = backV iA pA d1.vm from rfl]
        simp only [lstep_foreign iA pA k oth (P' := P') hk hn hp]
        cases hs : step E.H P' code.length d1.vm i with
        | ok o =>
          cases o with
          | cont vm =>
            simp only [Res.bind_ok]
            exact lloop_foreign hk hc n { d1 with vm := vm } ((step_leaf hn hs).ptr hp)
          | yield y vm => rfl
        | trap e => rfl
        | panic => rfl
        | ub => rfl

/-- the tail-call chain on such code -/
theorem lchain_foreign {E : Env} {P' : Prog} {code : List Instr} (hk : k < oth.length) (hc : ∀ i ∈ code, iNeeds i ≤ 1) :
    ∀ (n : Nat) (d : DState), d.vm.memPtr = d.vm.inst.ptr →
      ltcoChain E code n (backD iA pA d) (sideV k oth d.vm) =
        (tcoChain { E with P := P' } code n d).map fun r => r >>= fun fin => .ok (backF iA pA k oth fin)
  | 0, _, _ => rfl
  | n + 1, d, hp => by
    rw [ltcoChain, tcoChain]
    rw [show (backD iA pA d).vm.pc = d.vm.pc from rfl]
    cases hi : code[d.vm.pc]? with
    | none =>
      simp only
      split <;> rfl
    | some i =>
      have hn := hc i (List.mem_of_getElem? hi)
      rw [show (backD iA pA d).vm = backV iA pA d.vm from rfl]
      simp only [lstep_foreign iA pA k oth (P' := P') hk hn hp]
      cases hs : step E.H P' code.length d.vm i with
      | ok o =>
        cases o with
        | cont vm =>
          have hp' : vm.memPtr = vm.inst.ptr := (step_leaf hn hs).ptr hp
          simp only [Res.bind_ok, backO]
          rw [show ({ backD iA pA d with vm := backV iA pA vm } : DState) = backD iA pA { d with vm := vm } from rfl,
            poll_back iA pA E P']
          have hvm := poll_vm { E with P := P' } { d with vm := vm }
          generalize poll { E with P := P' } { d with vm := vm } = q at hvm
          obtain ⟨b, d1⟩ := q
          simp only at hvm
          cases b with
          | true => simp only [Out.after, ← hvm]; rfl
          | false =>
            simp only [Out.after, ← hvm]
            exact lchain_foreign hk hc n d1 (by rw [hvm]; exact hp')
        | yield y vm => rfl
      | trap e => rfl
      | panic => rfl
      | ub => rfl

/-- the tail-call dispatcher on such code -/
theorem ltco_foreign {E : Env} {P' : Prog} {code : List Instr} (hk : k < oth.length) (hc : ∀ i ∈ code, iNeeds i ≤ 1)
    (n : Nat) (d : DState) (hp : d.vm.memPtr = d.vm.inst.ptr) :
    ltcoRun E code n (backD iA pA d) (sideV k oth d.vm) =
      (tcoRun { E with P := P' } code n d).map fun r => r >>= fun fin => .ok (backF iA pA k oth fin) := by
  unfold ltcoRun tcoRun
  rw [poll_back iA pA E P']
  have hvm := poll_vm { E with P := P' } d
  generalize poll { E with P := P' } d = q at hvm
  obtain ⟨b, d1⟩ := q
  simp only at hvm
  rw [← hvm] at hp ⊢
  cases b with
  | true => rfl
  | false =>
    simp only
    rw [show (backD iA pA d1).vm.pc = d1.vm.pc from rfl]
    split
    · rfl
    · exact lchain_foreign iA pA k oth hk hc n d1 hp

end

/-- either dispatcher on such code -/
theorem foreign_dispatch {D : Env → Dispatcher} {L : Env → LDispatcher} (hD : (D = loopD ∧ L = lloopD) ∨ (D = tcoD ∧ L = ltcoD))
    (iA : Inst) (pA : Option Nat) {k : Nat} {oth : List (Option Mem)} {E : Env} {P' : Prog} {code : List Instr} (hk : k < oth.length)
    (hc : ∀ i ∈ code, iNeeds i ≤ 1) (n : Nat) (d : DState) (hp : d.vm.memPtr = d.vm.inst.ptr) :
    L E n code (backD iA pA d) (sideV k oth d.vm) =
      (D { E with P := P' } n code d).map fun r => r >>= fun fin => .ok (backF iA pA k oth fin) := by
  rcases hD with ⟨rfl, rfl⟩ | ⟨rfl, rfl⟩
  · exact lloop_foreign iA pA k oth hk hc n d hp
  · exact ltco_foreign iA pA k oth hk hc n d hp

/-! ## In its own instance -/

theorem return_last {S : Wasi} {m m' : Machine S} {f : Frame} (h : m.frames = [f]) (hr : m.doReturn = .ok (.running m')) : False := by
  simp only [Machine.doReturn, h] at hr
  obtain ⟨vs, _, hr⟩ := bind_eq_ok hr
  cases hr

/-- steps of such code stay in the dispatcher -/
theorem path_plain {S : Wasi} {E : Env} {code : List Instr} (hc : ∀ i ∈ code, iNeeds i ≤ 1) {j : Nat} {a b : Conf S} (h : CPath E j a b) :
    ∀ {fr : Frame}, a.m.frames = [fr] → E.P.body fr.func = code → a.vm.memPtr = a.vm.inst.ptr →
      b.m = a.m ∧ b.vm.memPtr = b.vm.inst.ptr ∧ (∃ m, b.vm.inst = { a.vm.inst with mem := m }) ∧
      ∀ n o, plainRun E.H E.P code n b.vm = some o → plainRun E.H E.P code (n + j) a.vm = some o := by
  induction h with
  | nil c => exact fun _ _ hp => ⟨rfl, hp, ⟨c.vm.inst.mem, rfl⟩, fun n o h => h⟩
  | @cons j a b c hs _ ih =>
    intro fr hf hb hp
    cases hs with
    | @cont m vm vm' f fs i h1 h2 h3 =>
      rw [hf] at h1; cases h1
      rw [hb] at h2 h3
      have hl := step_leaf (hc i (List.mem_of_getElem? h2)) h3
      obtain ⟨e1, e2, ⟨x, e3⟩, e4⟩ := ih hf hb (hl.ptr hp)
      obtain ⟨y, e5⟩ := hl.inst
      refine ⟨e1, e2, ⟨x, ?_⟩, fun n o ho => ?_⟩
      · rw [e3]; simp only [Out.after] at e5; rw [e5]
      · have := e4 n o ho
        rw [show n + (j + 1) = (n + j) + 1 from rfl, plainRun, h2]
        simp only [h3]
        exact this
    | @yield m m' vm vm' f f' fs fs' i y h1 h2 h3 h4 h5 =>
      rw [hf] at h1; cases h1
      rw [hb] at h2 h3
      have hl := step_leaf (hc i (List.mem_of_getElem? h2)) h3
      cases hl.ret _ _ rfl
      have hf' : m.frames = [fr] := hf
      exact (return_last (m := m.leave fr ⟨vm', false, 0, m.looks⟩) (by simp only [Machine.leave, hf', List.tail_cons]; rfl) h4).elim
    | @halt m m' vm f f' fs fs' h1 h2 h3 h4 h5 =>
      rw [hf] at h1; cases h1
      have hf' : m.frames = [fr] := hf
      exact (return_last (m := m.leave fr ⟨vm, false, 0, m.looks⟩) (by simp only [Machine.leave, hf', List.tail_cons]; rfl) h4).elim

theorem getVals_take {r : RegFile} {e : Fail} : ∀ (xs : List Reg) (n : Nat), r.getVals (xs.take n) = e.report → r.getVals xs = e.report
  | [], n, h => by simpa only [List.take_nil] using h
  | x :: xs, 0, h => by cases e <;> cases h
  | x :: xs, n + 1, h => by
    simp only [List.take_succ_cons, RegFile.getVals] at h ⊢
    cases hx : r.getVal x with
    | ok v =>
      simp only [hx, Res.bind_ok] at h ⊢
      have h' : r.getVals (xs.take n) = e.report := by
        cases hv : r.getVals (xs.take n) with
        | ok vs => rw [hv] at h; cases e <;> cases h
        | trap e' => rw [hv] at h; cases e <;> cases h; rfl
        | panic => rw [hv] at h; cases e <;> cases h; rfl
        | ub => rw [hv] at h; cases e <;> cases h; rfl
      rw [getVals_take xs n h']
      cases e <;> rfl
    | trap e' => rw [hx] at h; cases e <;> cases h; rfl
    | panic => rw [hx] at h; cases e <;> cases h; rfl
    | ub => rw [hx] at h; cases e <;> cases h; rfl

/-- the last return fails only where its results are read -/
theorem last_fail {S : Wasi} {m : Machine S} {f : Frame} {d : DState} {e : Fail} (h : m.frames = [f])
    (hr : Round.ended ((m.leave f d).doReturn) = some e.res) : d.vm.rf.getVals d.vm.retRegs = e.report := by
  refine getVals_take _ f.n ?_
  simp only [Machine.doReturn, Machine.leave, h, List.tail_cons] at hr
  cases hx : d.vm.rf.getVals (d.vm.retRegs.take f.n) with
  | ok vs => rw [hx] at hr; cases e <;> cases hr
  | trap e' => rw [hx] at hr; cases e <;> cases hr; rfl
  | panic => rw [hx] at hr; cases e <;> cases hr; rfl
  | ub => rw [hx] at hr; cases e <;> cases hr; rfl

/-- the state a function of the instance `i` is entered with -/
def entry (i : Inst) (low : RegFile) (W : Cls → Nat) (locals : List Val) : VM :=
  { rf := low.saveOffsets W, locals := locals, pc := 0, labels := [⟨false, 0, 0⟩], retRegs := [], memPtr := i.ptr, inst := i }

/-- as long as such code steps on, it has not ended -/
theorem path_long {S : Wasi} {E : Env} {code : List Instr} (hc : ∀ i ∈ code, iNeeds i ≤ 1) {j : Nat} {a b : Conf S} (h : CPath E j a b) :
    ∀ {fr : Frame}, a.m.frames = [fr] → E.P.body fr.func = code → ∀ k, k ≤ j → plainRun E.H E.P code k a.vm = none := by
  induction h with
  | nil c => intro _ _ _ k hk; cases Nat.le_zero.mp hk; rfl
  | @cons j a b c hs _ ih =>
    intro fr hf hb k hk
    cases k with
    | zero => rfl
    | succ k =>
    cases hs with
    | @cont m vm vm' f fs i h1 h2 h3 =>
      rw [hf] at h1; cases h1
      rw [hb] at h2 h3
      have := ih hf hb k (by omega)
      rw [plainRun, h2]
      simp only [h3]
      exact this
    | @yield m m' vm vm' f f' fs fs' i y h1 h2 h3 h4 h5 =>
      rw [hf] at h1; cases h1
      rw [hb] at h2 h3
      have hl := step_leaf (hc i (List.mem_of_getElem? h2)) h3
      cases hl.ret _ _ rfl
      have hf' : m.frames = [fr] := hf
      exact (return_last (m := m.leave fr ⟨vm', false, 0, m.looks⟩) (by simp only [Machine.leave, hf', List.tail_cons]; rfl) h4).elim
    | @halt m m' vm f f' fs fs' h1 h2 h3 h4 h5 =>
      rw [hf] at h1; cases h1
      have hf' : m.frames = [fr] := hf
      exact (return_last (m := m.leave fr ⟨vm, false, 0, m.looks⟩) (by simp only [Machine.leave, hf', List.tail_cons]; rfl) h4).elim

/-- how such code ends in its own instance -/
structure OwnRun (P : Prog) (H : FloatHost) (code : List Instr) (i : Inst) (low : RegFile) (vm : VM) (vs : List Val) (st : Store) : Prop where
  run : ∃ k y vm', plainRun H P code k vm = some (.ok (y, vm')) ∧ (y = none ∨ y = some .ret) ∧ vm'.inst = { i with mem := st.mem } ∧
    st = { storeOf i with mem := st.mem } ∧ vm'.rf.restoreOffsets = low ∧ vm'.rf.getVals vm'.retRegs = .ok vs ∧ vm'.memPtr = vm'.inst.ptr

theorem own_run {S : Wasi} {E : Env} {Q : SProg} {globals : List Cls} {inst : Inst} {f : Nat} {t : FuncType}
    {ls : List (Nat × Cls)} {b : WSeq} {args : List Val} (st : Start S E Q globals inst f t ls b args) (world : S.W)
    {low : RegFile} (hlow : LowOk low) (hn : ∀ i ∈ E.P.body f, iNeeds i ≤ 1) :
    ∃ W, E.P.funcs[f]? = some (.runtime t ⟨ls, E.P.body f, some W⟩) ∧ callLocals ls = .ok (declLocals ls) ∧
      (∀ n vs s w, invoke S Q (Q.info globals) n (.wasm t ls b) args (storeOf inst) world = .ok vs s w →
        w = world ∧ OwnRun E.P E.H (E.P.body f) inst low (entry inst low W (args ++ declLocals ls)) vs s) ∧
      (∀ n e s w, invoke S Q (Q.info globals) n (.wasm t ls b) args (storeOf inst) world = .fail e s w →
        ∃ k o, plainRun E.H E.P (E.P.body f) k (entry inst low W (args ++ declLocals ls)) = some o ∧
          (o = e.report ∨ ∃ y vm', o = .ok (y, vm') ∧ (y = none ∨ y = some .ret) ∧ vm'.rf.getVals vm'.retRegs = e.report)) ∧
      (∀ n, invoke S Q (Q.info globals) n (.wasm t ls b) args (storeOf inst) world ≠ .stuck) ∧
      ((∀ n, invoke S Q (Q.info globals) n (.wasm t ls b) args (storeOf inst) world = .timeout) →
        ∀ k, plainRun E.H E.P (E.P.body f) k (entry inst low W (args ++ declLocals ls)) = none) := by
  have lk := linked st.host st.load st.accepted st.wasi
  obtain ⟨hM, hcl, hcap, body, W, hP, hsym⟩ := lk.wasm f t ls b st.func
  have hbody : E.P.body f = body := by simp only [Prog.body, hP]
  let fr := newFrame inst f t (args ++ declLocals ls) false
  let m : Machine S := { rf := low.saveOffsets W, frames := [fr], inst := inst, world := world, looks := 0 }
  let cx : Cx S := ⟨E, Q, fnCtx (Q.info globals) t ls, body, W, f, [], low⟩
  have ok : CxOk cx := ⟨hbody, st.host, hlow, hcap⟩
  have hrel : Rel cx [] 0 [] [] [] ⟨args ++ declLocals ls, storeOf inst, world⟩ ⟨m, (m.enter fr).vm⟩ := by
    refine ⟨⟨fr, rfl, rfl, rfl⟩, rfl, rfl, rfl, rfl, ⟨rfl, ?_, rfl, rfl, st.globals⟩, Win.enter, rfl, rfl⟩
    simp only [cx, List.map_append, st.args, declLocals_cls, localTypes, fnCtx]
  have hsim : ∀ n, CallMatch cx n (invoke S Q (Q.info globals) n (.wasm t ls b) args (storeOf inst) world) ⟨m, (m.enter fr).vm⟩ :=
    fun n => sim_fn n cx ok lk b hsym _ _ hrel
  have hent : (m.enter fr).vm = entry inst low W (args ++ declLocals ls) := rfl
  have hpath : ∀ {j : Nat} {c' : Conf S}, CPath E j ⟨m, (m.enter fr).vm⟩ c' → _ :=
    fun h => path_plain hn h (fr := fr) rfl rfl rfl
  refine ⟨W, by rw [hbody, hP], hcl, fun n vs s w h => ?_, fun n e s w h => ?_, fun n h => ?_, fun h k => ?_⟩
  · have hs := hsim n
    rw [h] at hs
    obtain ⟨j, c', hp, hret⟩ := hs
    obtain ⟨e1, e2, ⟨x, e3⟩, e4⟩ := hpath hp
    obtain ⟨vm', hl, hw, hst, hv, hlen⟩ := hret.out
    have hwd : w = world := by rw [← hret.world, e1]
    refine ⟨hwd, ?_⟩
    have hstore : ∀ i : Inst, (∃ x, i = { inst with mem := x }) → i.store = s →
        i = { inst with mem := s.mem } ∧ s = { storeOf inst with mem := s.mem } := by
      rintro i ⟨x, rfl⟩ rfl
      exact ⟨rfl, rfl⟩
    cases hl with
    | @ret i _ hi hs =>
      have hlf := step_leaf (hn i (by rw [hbody]; exact List.mem_of_getElem? hi)) hs
      obtain ⟨y, hy⟩ := hlf.inst
      have hin := hstore vm'.inst ⟨y, by simp only [Out.after] at hy; rw [hy, e3]; rfl⟩ hst
      refine ⟨1 + j, some .ret, vm', e4 1 _ ?_, .inr rfl, hin.1, hin.2, hw.restore hlow, hv, hlf.ptr e2⟩
      have hi' : (E.P.body f)[c'.vm.pc]? = some i := by rw [hbody]; exact hi
      have hs' : step E.H E.P (E.P.body f).length c'.vm i = .ok (.yield .ret vm') := by rw [hbody]; exact hs
      simp only [plainRun, hi', hs']
    | halt hi _ =>
      have hin := hstore c'.vm.inst ⟨x, e3⟩ hst
      refine ⟨1 + j, none, { c'.vm with pc := 0, labels := [] }, e4 1 _ ?_, .inl rfl, hin.1, hin.2, hw.restore hlow, hv, e2⟩
      have hi' : (E.P.body f)[c'.vm.pc]? = none := by rw [hbody]; exact hi
      simp only [plainRun, hi']
  · have hs := hsim n
    rw [h] at hs
    obtain ⟨j, c', l, hp, he, _⟩ := hs
    obtain ⟨e1, e2, ⟨x, e3⟩, e4⟩ := hpath hp
    obtain ⟨m', vm⟩ := c'
    simp only at e1
    subst e1
    cases he with
    | @fail _ _ f' fs i r h1 h2 h3 =>
      cases h1
      have h2' : (E.P.body f)[vm.pc]? = some i := h2
      have h3' : failed (S := S) (step E.H E.P (E.P.body f).length vm i) = some e.res := h3
      refine ⟨1 + j, e.report, e4 1 _ ?_, .inl rfl⟩
      simp only [plainRun, h2']
      cases hx : step E.H E.P (E.P.body f).length vm i with
      | ok o => rw [hx] at h3'; cases h3'
      | trap e' => rw [hx] at h3'; cases e <;> cases h3'; rfl
      | panic => rw [hx] at h3'; cases e <;> cases h3'; rfl
      | ub => rw [hx] at h3'; cases e <;> cases h3'; rfl
    | @yield _ _ vm' f' fs i y r h1 h2 h3 h4 =>
      cases h1
      have h2' : (E.P.body f)[vm.pc]? = some i := h2
      have h3' : step E.H E.P (E.P.body f).length vm i = .ok (.yield y vm') := h3
      cases (step_leaf (hn i (List.mem_of_getElem? h2')) h3').ret _ _ rfl
      refine ⟨1 + j, .ok (some .ret, vm'), e4 1 _ ?_, .inr ⟨_, _, rfl, .inr rfl, ?_⟩⟩
      · simp only [plainRun, h2', h3']
      · exact last_fail (m := m) (d := ⟨vm', false, 0, m.looks⟩) rfl h4
    | @halt _ _ f' fs r h1 h2 h3 h4 =>
      cases h1
      have h2' : (E.P.body f)[vm.pc]? = none := h2
      refine ⟨1 + j, .ok (none, { vm with pc := 0, labels := [] }), e4 1 _ ?_, .inr ⟨_, _, rfl, .inl rfl, ?_⟩⟩
      · simp only [plainRun, h2']
      · exact last_fail (m := m) (d := ⟨vm, false, 0, m.looks⟩) rfl h4
  · have hs := hsim n
    rw [h] at hs
    exact hs
  · have hs := hsim k
    rw [h k] at hs
    obtain ⟨j, c', hj, hp⟩ := hs
    exact path_long hn hp (fr := fr) rfl rfl k hj

theorem flat_mem : ∀ {w : WSeq}, w.ownMemory = true → ∀ o ∈ w.flat, memOp o = true
  | .done, _, o, h => by simp [WSeq.flat] at h
  | .op x k, hw, o, h => by
    simp only [WSeq.ownMemory, Bool.and_eq_true] at hw
    simp only [WSeq.flat, List.mem_cons] at h
    rcases h with rfl | h
    · exact hw.1
    · exact flat_mem hw.2 o h
  | .block bt b k, hw, o, h | .loop bt b k, hw, o, h | .ite bt b k, hw, o, h => by
    simp only [WSeq.ownMemory, Bool.and_eq_true] at hw
    simp only [WSeq.flat, List.mem_cons, List.mem_append] at h
    rcases h with rfl | h | rfl | h
    · rfl
    · exact flat_mem hw.1 o h
    · rfl
    · exact flat_mem hw.2 o h
  | .itee bt t e k, hw, o, h => by
    simp only [WSeq.ownMemory, Bool.and_eq_true] at hw
    simp only [WSeq.flat, List.mem_cons, List.mem_append] at h
    rcases h with rfl | h | rfl | h | rfl | h
    · rfl
    · exact flat_mem hw.1.1 o h
    · rfl
    · exact flat_mem hw.1.2 o h
    · rfl
    · exact flat_mem hw.2 o h

theorem mem_needs {o : WOp} (h : memOp o = true) : oNeeds o ≤ 1 := by
  cases o <;> first | exact Nat.zero_le _ | exact Nat.le_refl 1 | simp [memOp, ownOp] at h

/-- the code of such a function -/
theorem own_memory_needs {S : Wasi} {E : Env} {Q : SProg} {globals : List Cls} {inst : Inst} {f : Nat} {t : FuncType}
    {ls : List (Nat × Cls)} {b : WSeq} {args : List Val} (st : Start S E Q globals inst f t ls b args)
    (hm : (SFunc.wasm t ls b).ownMemory = true) : ∀ i ∈ E.P.body f, iNeeds i ≤ 1 := by
  have hc := st.load
  simp only [SProg.compile, Option.map_eq_some_iff] at hc
  obtain ⟨fs, hfs, hP⟩ := hc
  obtain ⟨G, hG, hcf⟩ := (compileAll_get hfs f).2.2 _ st.func
  simp only [compileFunc, Option.map_eq_some_iff] at hcf
  obtain ⟨code, hcode, rfl⟩ := hcf
  have hb : E.P.body f = code.body := by
    unfold Prog.body
    rw [← hP]
    simp only [hG]
  rw [hb]
  refine compile_needs hcode 1 fun o ho => ?_
  simp only [WSeq.body, List.mem_append, List.mem_singleton] at ho
  rcases ho with ho | rfl
  · exact mem_needs (flat_mem hm o ho)
  · exact Nat.zero_le _

end Verif.Lemmas
