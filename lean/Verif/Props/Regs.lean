import Verif.Lemmas.Regs
/-
C13, C15, C16, C42 (and the allocator part of C14): the register file and the register allocator.
-/
namespace Verif.Props
open Verif.Model Verif.Lemmas

/-! ### C42 -/

/-- C42. Writing register `(c, i)` makes it read back as the value written, and every other register — of the same bank
or of another bank — reads as before. -/
theorem set_only_that_register (r r' : RegFile) (c : Cls) (i : Nat) (v : c.Carrier) (h : r.set c i v = .ok r') :
    r'.get c i = .ok v ∧ ∀ d j, (d ≠ c ∨ j ≠ i) → r'.get d j = r.get d j := by
  refine ⟨?_, ?_⟩
  · rw [get_set r r' c c i i v h]; simp
  · intro d j hdj
    rw [get_set r r' c d i j v h]
    by_cases hcd : d = c
    · rcases hdj with h1 | h1
      · exact absurd hcd h1
      · simp [hcd, h1]
    · simp [hcd]

/-- C42 for the tagged write used to deliver call results: whatever the (possibly mismatching) type of the value, no
other register changes. -/
theorem setVal_only_that_register (r r' : RegFile) (x : Reg) (v : Val) (h : r.setVal x v = .ok r') :
    ∀ d j, (d ≠ x.cls ∨ j ≠ x.idx) → r'.get d j = r.get d j := by
  intro d j hdj
  obtain ⟨c, i⟩ := x
  cases c <;> simp only [RegFile.setVal] at h <;> simp only at hdj
  case v128 => cases h; rfl
  all_goals
    split at h
    · exact (set_only_that_register _ _ _ _ _ h).2 d j hdj
    · first
        | exact (set_only_that_register _ _ _ _ _ h).2 d j hdj
        | (cases h; rfl)

/-- a register file with one frame of two i32 and one i64 register -/
def exRegs : RegFile := RegFile.empty.saveOffsets fun c => match c with | .i32 => 2 | .i64 => 1 | _ => 0
example : ∃ r', exRegs.set .i32 1 5#32 = .ok r' ∧ r'.get .i32 1 = .ok 5#32 ∧ r'.get .i32 0 = .ok 0#32 ∧
    r'.get .i64 0 = .ok 0#64 := ⟨_, rfl, rfl, rfl, rfl⟩

/-! ### C13 -/

/-- What code running inside a call can do to the register file. -/
inductive RegOp
  | set (c : Cls) (i : Nat) (v : c.Carrier)
  | copy (src dst : Reg)
  | setVal (x : Reg) (v : Val)
  | call (alloc : Cls → Nat)
  | ret

/-- one register-file operation -/
def RegOp.run (r : RegFile) : RegOp → Res RegFile
  | .set c i v => r.set c i v
  | .copy s d => r.copyReg s d
  | .setVal x v => r.setVal x v
  | .call a => .ok (r.saveOffsets a)
  | .ret => .ok r.restoreOffsets

/-- a sequence of operations -/
def runRegOps (r : RegFile) : List RegOp → Res RegFile
  | [] => .ok r
  | op :: ops => do
    let r' ← op.run r
    runRegOps r' ops

/-- `ops` is a properly nested execution inside a callee at relative depth `n`: every `ret` matches a `call`,
and at the end all nested calls have returned. -/
def Nested : Nat → List RegOp → Prop
  | n, [] => n = 0
  | n, .call _ :: ops => Nested (n + 1) ops
  | 0, .ret :: _ => False
  | n + 1, .ret :: ops => Nested n ops
  | n, _ :: ops => Nested n ops

/-- the part of the register file that belongs to the callers is the one of `r0`; `n` nested calls are active -/
structure Above (r0 r : RegFile) (n : Nat) : Prop where
  pre : ∀ c, (r.regs c).take (r0.regs c).length = r0.regs c
  frames : ∃ extra : List Offsets, extra.length = n ∧
    r.frames = extra ++ (fun c => (r0.regs c).length) :: r0.frames ∧
    (∀ o ∈ extra, ∀ c, (r0.regs c).length ≤ o c) ∧
    r.cached = (match extra with | [] => (fun c => (r0.regs c).length) | o :: _ => o)

theorem Above.len {r0 r : RegFile} {n : Nat} (h : Above r0 r n) (c : Cls) : (r0.regs c).length ≤ (r.regs c).length := by
  have h1 := congrArg List.length (h.pre c)
  rw [List.length_take] at h1; omega

theorem Above.cachedLe {r0 r : RegFile} {n : Nat} (h : Above r0 r n) (c : Cls) : (r0.regs c).length ≤ r.cached c := by
  obtain ⟨extra, _, _, hle, hc⟩ := h.frames
  rw [hc]
  cases extra with
  | nil => exact Nat.le_refl _
  | cons o _ => exact hle o (by simp) c

theorem Above.set {r0 r r' : RegFile} {n : Nat} (h : Above r0 r n) {c : Cls} {i : Nat} {v : c.Carrier}
    (hs : r.set c i v = .ok r') : Above r0 r' n := by
  have hc := h.cachedLe c
  unfold RegFile.set at hs
  split at hs
  · injection hs with hs; subst hs
    refine ⟨?_, h.frames⟩
    intro d
    by_cases hd : d = c
    · subst hd
      simp only [upd_same]
      rw [List.take_set_of_le (by omega)]; exact h.pre d
    · simp only [upd_ne _ _ _ _ hd]; exact h.pre d
  · cases hs

theorem Above.step {r0 r r' : RegFile} {n : Nat} {op : RegOp} {ops : List RegOp} (h : Above r0 r n)
    (hn : Nested n (op :: ops)) (hr : op.run r = .ok r') : ∃ n', Above r0 r' n' ∧ Nested n' ops := by
  cases op with
  | set c i v => exact ⟨n, h.set hr, by cases n <;> exact hn⟩
  | copy s d =>
    refine ⟨n, ?_, by cases n <;> exact hn⟩
    simp only [RegOp.run, RegFile.copyReg] at hr
    split at hr
    · cases hg : r.get s.cls s.idx <;> simp [hg] at hr
      exact h.set hr
    · cases hr; exact h
  | setVal x v =>
    refine ⟨n, ?_, by cases n <;> exact hn⟩
    obtain ⟨c, i⟩ := x
    cases c <;> simp only [RegOp.run, RegFile.setVal] at hr
    case v128 => cases hr; exact h
    all_goals
      split at hr
      · exact h.set hr
      · first
          | exact h.set hr
          | (cases hr; exact h)
  | call a =>
    refine ⟨n + 1, ?_, by cases n <;> exact hn⟩
    simp only [RegOp.run, RegFile.saveOffsets] at hr
    injection hr with hr; subst hr
    obtain ⟨extra, h1, h2, h3, h4⟩ := h.frames
    refine ⟨?_, (fun c => (r.regs c).length) :: extra, by simp [h1], by simp [h2], ?_, rfl⟩
    · intro c
      rw [List.take_append_of_le_length (h.len c)]; exact h.pre c
    · intro o ho c
      rcases List.mem_cons.1 ho with rfl | ho
      · exact h.len c
      · exact h3 o ho c
  | ret =>
    cases n with
    | zero => exact absurd hn (by simp [Nested])
    | succ n =>
      refine ⟨n, ?_, hn⟩
      obtain ⟨extra, h1, h2, h3, h4⟩ := h.frames
      cases extra with
      | nil => simp at h1
      | cons o rest =>
        simp only [RegOp.run, RegFile.restoreOffsets, h2, List.cons_append] at hr
        injection hr with hr; subst hr
        refine ⟨?_, rest, by simpa using h1, rfl, fun o' ho' => h3 o' (by simp [ho']), ?_⟩
        · intro c
          rw [List.take_take, Nat.min_eq_left (h3 o (by simp) c)]
          exact h.pre c
        · cases rest <;> rfl

/-- C13. Opening a register window, running any callee code with arbitrarily nested calls, and closing the window gives
back exactly the caller's register file: all values, the window stack and the current window.
`hcache`: the cached window is that of the top frame — true initially and preserved by every operation
(`cached_is_top`). -/
theorem call_preserves_caller_registers (r r' : RegFile) (alloc : Cls → Nat) (ops : List RegOp)
    (hcache : r.cached = match r.frames with | [] => fun _ => 0 | o :: _ => o)
    (hn : Nested 0 ops) (hr : runRegOps (r.saveOffsets alloc) ops = .ok r') : r'.restoreOffsets = r := by
  have start : Above r (r.saveOffsets alloc) 0 := by
    refine ⟨?_, [], rfl, rfl, by simp, rfl⟩
    intro c; simp [RegFile.saveOffsets]
  have key : ∀ ops n s, Above r s n → Nested n ops → runRegOps s ops = .ok r' → Above r r' 0 := by
    intro ops
    induction ops with
    | nil =>
      intro n s hs hn hr
      simp only [runRegOps] at hr; cases hr
      simp only [Nested] at hn; subst hn; exact hs
    | cons op ops ih =>
      intro n s hs hn hr
      simp only [runRegOps] at hr
      cases hop : op.run s with
      | ok s' =>
        simp only [hop, Res.bind_ok] at hr
        obtain ⟨n', h1, h2⟩ := hs.step hn hop
        exact ih n' s' h1 h2 hr
      | _ => simp [hop] at hr
  have fin := key ops 0 _ start hn hr
  obtain ⟨extra, h1, h2, h3, h4⟩ := fin.frames
  have : extra = [] := List.eq_nil_of_length_eq_zero h1
  subst this
  apply RegFile.ext'
  · intro c; simp only [RegFile.restoreOffsets, h2, List.nil_append]; exact fin.pre c
  · simp [RegFile.restoreOffsets, h2]
  · simp only [RegFile.restoreOffsets, h2, List.nil_append]; exact hcache.symm

/-- The cache hypothesis of `call_preserves_caller_registers` holds in every reachable register file. -/
theorem cached_is_top (r r' : RegFile) (ops : List RegOp)
    (h0 : r.cached = match r.frames with | [] => fun _ => 0 | o :: _ => o) (hr : runRegOps r ops = .ok r') :
    r'.cached = match r'.frames with | [] => fun _ => 0 | o :: _ => o := by
  induction ops generalizing r with
  | nil => simp only [runRegOps] at hr; cases hr; exact h0
  | cons op ops ih =>
    simp only [runRegOps] at hr
    cases hop : op.run r with
    | ok s =>
      simp only [hop, Res.bind_ok] at hr
      have hset : ∀ {c i v s}, r.set c i v = .ok s →
          s.cached = match s.frames with | [] => fun _ => 0 | o :: _ => o := by
        intro c i v s hs
        unfold RegFile.set at hs
        split at hs
        · injection hs with hs; subst hs; exact h0
        · cases hs
      refine ih s ?_ hr
      cases op with
      | set c i v => exact hset hop
      | copy a b =>
        simp only [RegOp.run, RegFile.copyReg] at hop
        split at hop
        · cases hg : r.get a.cls a.idx <;> simp [hg] at hop
          exact hset hop
        · cases hop; exact h0
      | setVal x v =>
        obtain ⟨c, i⟩ := x
        cases c <;> simp only [RegOp.run, RegFile.setVal] at hop
        case v128 => cases hop; exact h0
        all_goals
          split at hop
          · exact hset hop
          · first
              | exact hset hop
              | (cases hop; exact h0)
      | call a => simp only [RegOp.run] at hop; cases hop; rfl
      | ret =>
        simp only [RegOp.run, RegFile.restoreOffsets] at hop
        split at hop
        · rename_i hf; cases hop; simp [hf]
        · rename_i o rest hf
          injection hop with hop; subst hop
          cases rest <;> rfl
    | _ => simp [hop] at hr

/-- a callee that itself calls, writes in both windows and returns -/
def exOps : List RegOp :=
  [.set .i32 0 7#32, .call fun _ => 3, .set .i32 2 9#32, .ret, .set .i32 1 1#32]
example : Nested 0 exOps ∧ ∃ r', runRegOps (exRegs.saveOffsets fun _ => 2) exOps = .ok r' ∧
      r'.restoreOffsets = exRegs := by
  have hn : Nested 0 exOps := by simp [Nested, exOps]
  exact ⟨hn, _, rfl, call_preserves_caller_registers exRegs _ (fun _ => 2) exOps rfl hn rfl⟩

/-! ### C16 -/

/-- general form: a sequential move list is a parallel move when no destination is the source of a later move -/
theorem copyRegs_parallel (ss ds : List Reg) : ∀ (r : RegFile), ss.length = ds.length →
    (∀ i (hi : i < ss.length) (hi' : i < ds.length), ss[i].cls = ds[i].cls) → ds.Nodup →
    (∀ i j (hi : i < ds.length) (hj : j < ss.length), i < j → ds[i] ≠ ss[j]) →
    (∀ x ∈ ss ++ ds, ∃ v, r.get x.cls x.idx = .ok v) →
    ∃ r', r.copyRegs ss ds = .ok r' ∧
      (∀ i (hi : i < ss.length) (hi' : i < ds.length), r'.getVal ds[i] = r.getVal ss[i]) ∧
      (∀ x, x ∉ ds → r'.getVal x = r.getVal x) := by
  induction ss generalizing ds with
  | nil =>
    intro r hl _ _ _ _
    cases ds with
    | nil => exact ⟨r, rfl, by simp, by simp⟩
    | cons d ds => simp at hl
  | cons s ss ih =>
    intro r hl hcls hnd hlater hok
    cases ds with
    | nil => simp at hl
    | cons d ds =>
      have hc0 : s.cls = d.cls := hcls 0 (by simp) (by simp)
      obtain ⟨v, hv⟩ := hok s (by simp)
      obtain ⟨w, hw⟩ := hok d (by simp)
      have hv' : r.getVal s = .ok ⟨s.cls, v⟩ := by simp [RegFile.getVal, hv]
      obtain ⟨r1, hr1⟩ := set_ok_of_get hw (hc0 ▸ v)
      have hcopy : r.copyReg s d = .ok r1 := by simp [RegFile.copyReg, hc0, hv, hr1]
      have hget1 : r1.getVal d = r.getVal s := by
        rw [hv']
        obtain ⟨dc, di⟩ := d
        simp only at hc0; subst hc0
        simp only [RegFile.getVal]
        rw [(set_only_that_register r r1 _ _ _ hr1).1]; rfl
      have hother : ∀ x : Reg, x ≠ d → r1.get x.cls x.idx = r.get x.cls x.idx := by
        intro x hx
        apply (set_only_that_register r r1 _ _ _ hr1).2
        by_cases h : x.cls = d.cls
        · right; intro h2; exact hx (by cases x; cases d; simp_all)
        · left; exact h
      have hotherV : ∀ x : Reg, x ≠ d → r1.getVal x = r.getVal x := by
        intro x hx; simp only [RegFile.getVal, hother x hx]
      have hd_notin : d ∉ ss := by
        intro hmem
        obtain ⟨j, hj, he⟩ := List.mem_iff_getElem.1 hmem
        have := hlater 0 (j + 1) (by simp) (by simp; omega) (by omega)
        simp at this; exact this he.symm
      have hokd : ∃ u, r1.get d.cls d.idx = .ok u := ⟨_, (set_only_that_register r r1 _ _ _ hr1).1⟩
      obtain ⟨r', h1, h2, h3⟩ := ih ds r1 (by simpa using hl)
        (fun i hi hi' => by have := hcls (i + 1) (by simp; omega) (by simp; omega); simpa using this)
        (List.nodup_cons.1 hnd).2
        (fun i j hi hj hij => by
          have := hlater (i + 1) (j + 1) (by simp; omega) (by simp; omega) (by omega); simpa using this)
        (fun x hx => by
          by_cases hxd : x = d
          · subst hxd; exact hokd
          · rw [hother x hxd]
            apply hok
            simp only [List.mem_append, List.mem_cons] at hx ⊢
            rcases hx with hx | hx
            · exact Or.inl (Or.inr hx)
            · exact Or.inr (Or.inr hx))
      refine ⟨r', by simp [RegFile.copyRegs, hcopy, h1], ?_, ?_⟩
      · intro i hi hi'
        cases i with
        | zero =>
          simp only [List.getElem_cons_zero]
          rw [h3 d (List.nodup_cons.1 hnd).1, hget1]
        | succ i =>
          simp only [List.getElem_cons_succ]
          rw [h2 i (by simpa using hi) (by simpa using hi')]
          apply hotherV
          intro he; exact hd_notin (he ▸ List.getElem_mem _)
      · intro x hx
        simp only [List.mem_cons, not_or] at hx
        rw [h3 x hx.2, hotherV x hx.1]

theorem seqRegs_length (idx : Cls → Nat) (ts : List Cls) : (Alloc.seqRegs idx ts).length = ts.length := by
  induction ts generalizing idx with
  | nil => rfl
  | cons c ts ih => simp [Alloc.seqRegs, ih]

/-- the register of the `i`-th value: its bank, and the base index plus the number of earlier values of that bank -/
theorem seqRegs_getElem (idx : Cls → Nat) (ts : List Cls) (i : Nat) (hi : i < ts.length) :
    (Alloc.seqRegs idx ts)[i]? = some (Alloc.mkReg ts[i] (idx ts[i] + (ts.take i).count ts[i])) := by
  induction ts generalizing idx i with
  | nil => simp at hi
  | cons c ts ih =>
    cases i with
    | zero => simp [Alloc.seqRegs]
    | succ i =>
      simp only [Alloc.seqRegs, List.getElem?_cons_succ, List.getElem_cons_succ, List.take_succ_cons]
      rw [ih _ i (by simpa using hi)]
      congr 2
      by_cases h : ts[i]'(by simpa using hi) = c
      · rw [h, upd_same, List.count_cons_self]; omega
      · rw [upd_ne _ _ _ _ h, List.count_cons_of_ne (Ne.symm h)]

/-- C16. Moving the values of types `ts` from the consecutive registers starting at `src` to those starting at `dst`
(per bank, `dst ≤ src`: a block's result window lies at or below the top of the operand stack) delivers every value
intact although the windows may overlap, and changes no other register. The index bound is the 16-bit register index. -/
theorem block_result_move_parallel (r : RegFile) (ts : List Cls) (src dst : Cls → Nat)
    (hle : ∀ c, dst c ≤ src c) (hidx : ∀ c, src c + ts.count c ≤ 65536)
    (hok : ∀ x ∈ Alloc.seqRegs src ts ++ Alloc.seqRegs dst ts, ∃ v, r.get x.cls x.idx = .ok v) :
    ∃ r', r.copyRegs (Alloc.seqRegs src ts) (Alloc.seqRegs dst ts) = .ok r' ∧
      (∀ i (hi : i < ts.length),
        r'.getVal ⟨ts[i], dst ts[i] + (ts.take i).count ts[i]⟩ =
        r.getVal ⟨ts[i], src ts[i] + (ts.take i).count ts[i]⟩) ∧
      (∀ x, x ∉ Alloc.seqRegs dst ts → r'.getVal x = r.getVal x) := by
  have hcnt : ∀ i (hi : i < ts.length), (ts.take i).count ts[i] < ts.count ts[i] := by
    intro i hi
    have h1 : ts.count ts[i] = (ts.take i).count ts[i] + (ts.drop i).count ts[i] := by
      rw [← List.count_append, List.take_append_drop]
    have h2 : 0 < (ts.drop i).count ts[i] := by
      rw [List.count_pos_iff, List.mem_iff_getElem]
      exact ⟨0, by simp; omega, by simp⟩
    omega
  have hmono : ∀ i j (hi : i < ts.length) (hj : j < ts.length), i < j → ts[i] = ts[j] →
      (ts.take i).count ts[i] < (ts.take j).count ts[j] := by
    intro i j hi hj hij he
    rw [← he]
    have h1 : (ts.take j).count ts[i] = (ts.take i).count ts[i] + ((ts.take j).drop i).count ts[i] := by
      have : ts.take i = (ts.take j).take i := by rw [List.take_take, Nat.min_eq_left (by omega)]
      rw [this, ← List.count_append, List.take_append_drop]
    have h2 : 0 < ((ts.take j).drop i).count ts[i] := by
      rw [List.count_pos_iff, List.mem_iff_getElem]
      exact ⟨0, by simp; omega, by simp⟩
    omega
  have hget : ∀ (f : Cls → Nat), (∀ c, f c ≤ src c) → ∀ i (hi : i < ts.length) (hi' : i < (Alloc.seqRegs f ts).length),
      (Alloc.seqRegs f ts)[i] = ⟨ts[i], f ts[i] + (ts.take i).count ts[i]⟩ := by
    intro f hf i hi hi'
    have h := seqRegs_getElem f ts i hi
    rw [List.getElem?_eq_getElem hi'] at h
    injection h with h
    rw [h, Alloc.mkReg]
    congr 1
    have := hcnt i hi
    have := hidx ts[i]
    have := hf ts[i]
    exact Nat.mod_eq_of_lt (by omega)
  have hsl := seqRegs_length src ts
  have hdl := seqRegs_length dst ts
  obtain ⟨r', h1, h2, h3⟩ := copyRegs_parallel (Alloc.seqRegs src ts) (Alloc.seqRegs dst ts) r (by omega)
    (fun i hi hi' => by
      rw [hget src (fun c => Nat.le_refl _) i (by omega) hi, hget dst hle i (by omega) hi'])
    (by
      rw [List.nodup_iff_pairwise_ne, List.pairwise_iff_getElem]
      intro i j hi hj hij
      rw [hget dst hle i (by omega) hi, hget dst hle j (by omega) hj]
      intro he
      injection he with he1 he2
      have := hmono i j (by omega) (by omega) hij he1
      rw [he1] at he2 this; omega)
    (fun i j hi hj hij => by
      rw [hget dst hle i (by omega) hi, hget src (fun c => Nat.le_refl _) j (by omega) hj]
      intro he
      injection he with he1 he2
      have hm := hmono i j (by omega) (by omega) hij he1
      have := hle ts[j]
      rw [he1] at he2; rw [he1] at hm; omega)
    hok
  refine ⟨r', h1, ?_, h3⟩
  intro i hi
  have := h2 i (by omega) (by omega)
  rwa [hget src (fun c => Nat.le_refl _) i hi (by omega), hget dst hle i hi (by omega)] at this

/-- overlapping windows (source one above destination), mixed banks -/
example : ∃ r', (RegFile.empty.saveOffsets fun _ => 4).copyRegs
    (Alloc.seqRegs (fun _ => 1) [.i32, .i64, .i32]) (Alloc.seqRegs (fun _ => 0) [.i32, .i64, .i32]) = .ok r' := by
  obtain ⟨r', h, _⟩ := block_result_move_parallel (RegFile.empty.saveOffsets fun _ => 4) [.i32, .i64, .i32]
    (fun _ => 1) (fun _ => 0) (by intro; omega) (by intro c; cases c <;> decide)
    (by intro x hx; simp [Alloc.seqRegs, Alloc.mkReg, upd] at hx
        rcases hx with rfl | rfl | rfl | rfl | rfl | rfl <;> exact ⟨_, rfl⟩)
  exact ⟨r', h⟩

end Verif.Props
