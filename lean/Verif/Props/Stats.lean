import Verif.Lemmas.Handlers
import Verif.Model.Stats
/-
C59 and C60: the command line options `--stats` and `--trace`.
-/
namespace Verif.Props
open Verif.Model Verif.Spec Verif.Lemmas

/-- count of an association list -/
def Stats.count (s : Stats) (h : Nat) : Nat := ((s.per.find? (·.1 == h)).map (·.2)).getD 0

/-- the collector after recording these instructions -/
def Stats.after (executed : List Nat) : Stats := executed.foldl Stats.record Stats.new

theorem find_bump (h x : Nat) : ∀ m : List (Nat × Nat), (∀ e ∈ m, e.2 + 1 < 2 ^ 64) →
    ((bump h m).find? (·.1 == x)).map (·.2) =
      if x = h then some (((m.find? (·.1 == x)).map (·.2)).getD 0 + 1) else (m.find? (·.1 == x)).map (·.2)
  | [], _ => by
    by_cases hx : x = h
    · subst hx; simp [bump]
    · have : ¬ h = x := fun e => hx e.symm
      simp [bump, hx, this]
  | (k, n) :: m, hb => by
    have ih := find_bump h x m fun e he => hb e (by simp [he])
    have hn := hb (k, n) (by simp)
    simp only [bump]
    by_cases hk : k = h
    · subst hk
      rw [if_pos rfl]
      by_cases hx : k = x
      · subst hx; simp [List.find?, Nat.mod_eq_of_lt hn]
      · have : ¬ x = k := fun e => hx e.symm
        have hb : (k == x) = false := by simp [hx]
        simp [List.find?, this, hb]
    · rw [if_neg hk]
      by_cases hx : k = x
      · subst hx; simp [List.find?, hk]
      · have hb : (k == x) = false := by simp [hx]
        simp only [List.find?, hb]
        exact ih

theorem keys_bump (h : Nat) : ∀ m : List (Nat × Nat), (m.map (·.1)).Nodup →
    ((bump h m).map (·.1)).Nodup ∧ ∀ x, x ∈ (bump h m).map (·.1) ↔ x = h ∨ x ∈ m.map (·.1)
  | [], _ => by simp [bump]
  | (k, n) :: m, hn => by
    simp only [List.map_cons, List.nodup_cons] at hn
    obtain ⟨h1, h2⟩ := keys_bump h m hn.2
    simp only [bump]
    by_cases hk : k = h
    · subst hk
      rw [if_pos rfl]
      refine ⟨by simpa using hn, fun x => ?_⟩
      simp
    · rw [if_neg hk]
      simp only [List.map_cons, List.nodup_cons]
      refine ⟨⟨fun hm => ?_, h1⟩, fun x => ?_⟩
      · rcases (h2 k).1 hm with e | e
        · exact hk e
        · exact hn.1 e
      · rw [List.mem_cons, h2 x, List.mem_cons]
        constructor
        · rintro (e | e | e)
          · exact .inr (.inl e)
          · exact .inl e
          · exact .inr (.inr e)
        · rintro (e | e | e)
          · exact .inr (.inl e)
          · exact .inl e
          · exact .inr (.inr e)

theorem bump_val {h N : Nat} : ∀ {m : List (Nat × Nat)}, (∀ e ∈ m, e.2 ≤ N) → N + 1 < 2 ^ 64 → ∀ e ∈ bump h m, e.2 ≤ N + 1
  | [], _, _, e, he => by simp [bump] at he; subst he; simp
  | (k, n) :: m, hb, hN, e, he => by
    simp only [bump] at he
    have hn := hb (k, n) (by simp)
    split at he
    · rcases List.mem_cons.1 he with rfl | he
      · simp only
        rw [Nat.mod_eq_of_lt (by omega)]
        omega
      · exact Nat.le_succ_of_le (hb e (by simp [he]))
    · rcases List.mem_cons.1 he with rfl | he
      · exact Nat.le_succ_of_le hn
      · exact bump_val (fun e he => hb e (by simp [he])) hN e he

/-- what the collector holds after recording -/
structure Holds (s : Stats) (executed : List Nat) : Prop where
  total : s.total = executed.length
  count : ∀ h, Stats.count s h = executed.count h
  keys : (s.per.map (·.1)).Nodup
  mem : ∀ h, h ∈ s.per.map (·.1) ↔ h ∈ executed
  bound : ∀ e ∈ s.per, e.2 ≤ executed.length

theorem holds_record {s : Stats} {executed : List Nat} (H : Holds s executed) (hl : executed.length + 1 < 2 ^ 64) (h : Nat) :
    Holds (s.record h) (executed ++ [h]) := by
  obtain ⟨k1, k2⟩ := keys_bump h s.per H.keys
  refine ⟨?_, fun x => ?_, k1, fun x => ?_, ?_⟩
  · simp only [Stats.record, H.total, List.length_append, List.length_singleton]
    exact Nat.mod_eq_of_lt hl
  · have := find_bump h x s.per fun e he => Nat.lt_of_le_of_lt (Nat.succ_le_succ (H.bound e he)) hl
    simp only [Stats.count, Stats.record, this]
    have hc := H.count x
    simp only [Stats.count] at hc
    rw [List.count_append, ← hc]
    by_cases hx : x = h
    · subst hx; simp
    · have : ¬ h = x := fun e => hx e.symm
      simp [hx, this]
  · show x ∈ (bump h s.per).map (·.1) ↔ _
    rw [k2 x, H.mem x]
    simp [or_comm]
  · intro e he
    rw [List.length_append]
    exact bump_val H.bound hl e he

theorem holds_foldl : ∀ (l : List Nat) {s : Stats} {done : List Nat}, Holds s done → done.length + l.length < 2 ^ 64 →
    Holds (l.foldl Stats.record s) (done ++ l)
  | [], s, done, H, _ => by simpa using H
  | h :: l, s, done, H, hl => by
    simp only [List.length_cons] at hl
    have := holds_foldl l (holds_record H (by omega) h) (by simp; omega)
    simpa using this

theorem holds_after {executed : List Nat} (hl : executed.length < 2 ^ 64) : Holds (Stats.after executed) executed := by
  have : Holds Stats.new [] := ⟨rfl, fun _ => by simp [Stats.count, Stats.new], by simp [Stats.new], by simp [Stats.new], by simp [Stats.new]⟩
  simpa [Stats.after] using holds_foldl executed this (by simpa using hl)

/-- C59, part.  If every executed instruction is recorded, the collector counts them: the total is the number of
instructions executed, and the counter of each handler index is how often it was executed. -/
theorem stats_counts {executed : List Nat} (hl : executed.length < 2 ^ 64) :
    (Stats.after executed).total = executed.length ∧ ∀ h, Stats.count (Stats.after executed) h = executed.count h :=
  ⟨(holds_after hl).total, (holds_after hl).count⟩

theorem find_of_mem {h n : Nat} : ∀ {m : List (Nat × Nat)}, (m.map (·.1)).Nodup → (h, n) ∈ m →
    ((m.find? (·.1 == h)).map (·.2)).getD 0 = n
  | (k, v) :: m, hn, hm => by
    simp only [List.map_cons, List.nodup_cons] at hn
    rcases List.mem_cons.1 hm with e | hm
    · cases e; simp [List.find?]
    · have : k ≠ h := by rintro rfl; exact hn.1 (List.mem_map.2 ⟨_, hm, rfl⟩)
      have hb : (k == h) = false := by simp [this]
      simp only [List.find?, hb]
      exact find_of_mem hn.2 hm

/-- C59, part.  The report, whatever the iteration order of the hash map: it gives the number of instructions executed, one
line for each of the most frequent handler indices (at most twenty, most frequent first) with the number of times it was
executed, and the number of further indices; no index left out was executed more often than one that is listed. -/
theorem stats_report {executed : List Nat} (hl : executed.length < 2 ^ 64) {order : List (Nat × Nat)}
    (ho : order.Perm (Stats.after executed).per) :
    ∃ listed : List Nat,
      ((Stats.after executed).report order).total = executed.length ∧
      ((Stats.after executed).report order).top = listed.map (fun h => (statsName h, executed.count h)) ∧
      listed.Nodup ∧ (∀ h ∈ listed, h ∈ executed) ∧
      listed.Pairwise (fun a b => executed.count b ≤ executed.count a) ∧
      (∀ h ∈ listed, ∀ g ∈ executed, g ∉ listed → executed.count g ≤ executed.count h) ∧
      (∀ all : List Nat, all.Nodup → (∀ h, h ∈ all ↔ h ∈ executed) →
        listed.length = min 20 all.length ∧ ((Stats.after executed).report order).more = all.length - listed.length) := by
  have H := holds_after hl
  by_cases he : executed = []
  · subst he
    have hnil : (Stats.after []).per = [] := rfl
    refine ⟨[], rfl, rfl, by simp, by simp, by simp, by simp, fun all _ hm => ?_⟩
    have : all = [] := List.eq_nil_iff_forall_not_mem.2 fun x hx => by simpa using (hm x).1 hx
    subst this
    exact ⟨rfl, rfl⟩
  have ht : ¬ (Stats.after executed).total = 0 := by
    rw [H.total]
    intro hh
    exact he (List.eq_nil_of_length_eq_zero hh)
  let le : Nat × Nat → Nat × Nat → Bool := fun a b => decide (b.2 ≤ a.2)
  let sorted := order.mergeSort le
  have hperm : sorted.Perm (Stats.after executed).per := (List.mergeSort_perm order le).trans ho
  have hsort : sorted.Pairwise fun a b => b.2 ≤ a.2 := by
    have := List.pairwise_mergeSort (le := le) (fun a b c h1 h2 => by simp only [le, decide_eq_true_eq] at *; omega)
      (fun a b => by simp only [le, Bool.or_eq_true, decide_eq_true_eq]; omega) order
    exact this.imp fun h => by simpa [le] using h
  have hkeys : (sorted.map (·.1)).Nodup := (hperm.map _).nodup_iff.2 H.keys
  have hval : ∀ e ∈ sorted, e.2 = executed.count e.1 := by
    intro e hm
    rw [← H.count e.1]
    exact (find_of_mem H.keys (hperm.mem_iff.1 hm)).symm
  have hmem : ∀ h, h ∈ sorted.map (·.1) ↔ h ∈ executed := fun h => by rw [← H.mem h]; exact (hperm.map _).mem_iff
  let n := min 20 sorted.length
  have hsub : ∀ e ∈ sorted.take n, e ∈ sorted := fun e h => List.mem_of_mem_take h
  refine ⟨(sorted.take n).map (·.1), ?_, ?_, ?_, ?_, ?_, ?_, ?_⟩
  · simp only [Stats.report, if_neg ht]; exact H.total
  · simp only [Stats.report, if_neg ht, List.map_map]
    apply List.map_congr_left
    intro e hm
    simp only [Function.comp]
    rw [hval e (hsub e hm)]
  · rw [List.map_take]; exact hkeys.sublist (List.take_sublist _ _)
  · intro h hm
    rw [List.map_take] at hm
    exact (hmem h).1 (List.mem_of_mem_take hm)
  · rw [List.pairwise_map]
    refine (hsort.sublist (List.take_sublist n sorted)).imp_of_mem ?_
    intro a b ha hb hab
    rw [← hval a (hsub a ha), ← hval b (hsub b hb)]
    exact hab
  · intro h hm g hg hng
    obtain ⟨e, he1, rfl⟩ := List.mem_map.1 hm
    obtain ⟨e', he2, rfl⟩ := List.mem_map.1 ((hmem g).2 hg)
    have hd : e' ∈ sorted.drop n := by
      rcases List.mem_append.1 ((List.take_append_drop n sorted).symm ▸ he2) with h | h
      · exact absurd (List.mem_map.2 ⟨_, h, rfl⟩) hng
      · exact h
    have hp : (sorted.take n ++ sorted.drop n).Pairwise fun a b => b.2 ≤ a.2 := by rw [List.take_append_drop]; exact hsort
    have := (List.pairwise_append.1 hp).2.2 e he1 e' hd
    rw [← hval e (hsub e he1), ← hval e' he2]
    exact this
  · intro all hall hma
    have hlen : sorted.length = all.length := by
      have : (sorted.map (·.1)).Perm all := (List.perm_ext_iff_of_nodup hkeys hall).2 fun x => (hmem x).trans (hma x).symm
      simpa using this.length_eq
    have hn : n ≤ sorted.length := Nat.min_le_right _ _
    refine ⟨by simp only [List.length_map, List.length_take, n]; omega, ?_⟩
    simp only [Stats.report, if_neg ht, List.length_map, List.length_take]
    show sorted.length - n = _
    omega

example : (Stats.after [Idx.i32_add_, Idx.local_get_, Idx.i32_add_, Idx.end_, Idx.i32_add_, Idx.local_get_]).report (Stats.after [Idx.i32_add_, Idx.local_get_, Idx.i32_add_, Idx.end_, Idx.i32_add_, Idx.local_get_]).per =
    { total := 6, top := [("i32.add", 3), ("local.get", 2), ("end", 1)], more := 0 } := by
  have e : Stats.after [Idx.i32_add_, Idx.local_get_, Idx.i32_add_, Idx.end_, Idx.i32_add_, Idx.local_get_] =
      { total := 6, per := [(Idx.i32_add_, 3), (Idx.local_get_, 2), (Idx.end_, 1)] } := by rfl
  rw [e]
  simp [Stats.report, List.mergeSort, List.MergeSort.Internal.splitInTwo, List.merge]
  decide +kernel

/-- C59 is false of the code: whatever was executed, the report of a run says that nothing was. -/
theorem stats_violated : ∀ executed : List Nat, runStats true executed = some { total := 0, top := [], more := 0 } :=
  fun _ => rfl

local macro "nm" : tactic =>
  `(tactic| exact ⟨rfl, rfl⟩)

set_option maxHeartbeats 2000000 in
/-- C59 and C60, part.  The name shown for an instruction is that of the operator it was made from, except for `local.tee`
of an i32 or a reference (shown as `local.set`), `data.drop` and calls of WASI functions. -/
theorem shown_name_partial {k : Copy} {i : Instr} {r : Raw} (h : emitted k i = some r)
    (hk : k = .tee → (∀ d a, i ≠ .op1 (.mov .i32) d a) ∧ ∀ s l, i ≠ .refLocalSet s l)
    (hd : ∀ x, i ≠ .dataDrop x) (hw : ∀ x ps y, i ≠ .callWasi x ps y) :
    statsName r.handlerIndex = opName k i ∧ traceName r.handlerIndex = opName k i := by
  revert h
  cases i
  case op1 op d a =>
    cases op
    case mov c =>
      cases c <;> cases k <;> intro h <;>
        first | (cases h; nm) | exact absurd rfl ((hk rfl).1 d a) | cases h
    case int s o => cases s <;> cases o <;> intro h <;> first | (cases h; nm) | cases h
    case eqz s => cases s <;> intro h <;> (cases h; nm)
    case abs s => cases s <;> intro h <;> (cases h; nm)
    case neg s => cases s <;> intro h <;> (cases h; nm)
    case round s o => cases s <;> cases o <;> intro h <;> (cases h; nm)
    case trunc o => cases o <;> cases a <;> intro h <;> first | (cases h; nm) | cases h
    case truncSat o => cases o <;> cases a <;> intro h <;> first | (cases h; nm) | cases h
    case convert x y z =>
      cases x <;> cases y <;> cases z <;> cases a <;> intro h <;> first | (cases h; nm) | cases h
    case reinterpIF s => cases s <;> cases a <;> intro h <;> first | (cases h; nm) | cases h
    case reinterpFI s => cases s <;> cases a <;> intro h <;> first | (cases h; nm) | cases h
    all_goals cases a <;> intro h <;> first | (cases h; nm) | cases h
  case op2 op d a b =>
    cases op
    case int s o => cases s <;> cases o <;> intro h <;> (cases h; nm)
    case rel s o => cases s <;> cases o <;> intro h <;> (cases h; nm)
    case arith s o => cases s <;> cases o <;> intro h <;> (cases h; nm)
    case frel s o => cases s <;> cases o <;> intro h <;> (cases h; nm)
    all_goals rename_i s; cases s <;> intro h <;> (cases h; nm)
  case load op d a off => intro h; cases h; cases op <;> nm
  case store op a v off => intro h; cases h; cases op <;> nm
  case select c d v1 v2 x => cases c <;> intro h <;> first | (cases h; exact ⟨rfl, rfl⟩) | cases h
  case globalGet c d g => cases c <;> intro h <;> first | (cases h; exact ⟨rfl, rfl⟩) | cases h
  case globalSet c d g => cases c <;> intro h <;> first | (cases h; exact ⟨rfl, rfl⟩) | cases h
  case block l => intro h; cases h; cases l <;> exact ⟨rfl, rfl⟩
  case dataDrop x => exact absurd rfl (hd x)
  case callWasi x ps y => exact absurd rfl (hw x ps y)
  case refLocalSet s l =>
    intro h; cases h
    cases k
    case tee => exact absurd rfl ((hk rfl).2 s l)
    all_goals exact ⟨rfl, rfl⟩
  all_goals intro h; cases h; exact ⟨rfl, rfl⟩

example : ∃ r, emitted .tee (.op1 (.mov .i64) (.loc 3) (.reg 0)) = some r ∧ traceName r.handlerIndex = "local.tee" :=
  ⟨_, rfl, rfl⟩
example : ∃ r, emitted .get (.op2 (.rel .s64 .ltU) (.reg 0) (.reg 0) (.const 5)) = some r ∧ traceName r.handlerIndex = "i64.lt_u" :=
  ⟨_, rfl, rfl⟩

/-- C59 and C60 are false of the code for the exceptions of `shown_name_partial`: a `local.tee` of an i32 is shown as
`local.set`, a `data.drop` as a reserved (or unknown) instruction. -/
theorem shown_name_violated :
    (∃ r, emitted .tee (.op1 (.mov .i32) (.loc 0) (.reg 0)) = some r ∧ statsName r.handlerIndex = "local.set" ∧
      opName .tee (.op1 (.mov .i32) (.loc 0) (.reg 0)) = "local.tee") ∧
    (∃ r, emitted .get (.dataDrop 0) = some r ∧ statsName r.handlerIndex = "reserved" ∧ traceName r.handlerIndex = "unknown" ∧
      opName .get (.dataDrop 0) = "data.drop") :=
  ⟨⟨_, rfl, by decide +kernel, rfl⟩, ⟨_, rfl, by decide +kernel, by decide +kernel, rfl⟩⟩

local macro "kd" : tactic =>
  `(tactic| exact ⟨rfl, rfl, rfl, rfl⟩)

/-- calls of functions of the module -/
def isOwnCall : Instr → Bool | .callWasi _ _ _ => false | i => isCall i

set_option maxHeartbeats 2000000 in
theorem hits_kind {k : Copy} {i : Instr} {r : Raw} (h : emitted k i = some r) :
    TraceEvent.hits r.handlerIndex .store = isStore i ∧ TraceEvent.hits r.handlerIndex .load = isLoad i ∧
    TraceEvent.hits r.handlerIndex .call = isOwnCall i ∧ TraceEvent.hits r.handlerIndex .branch = isBranch i := by
  revert h
  cases i
  case op1 op d a =>
    cases op
    case mov c =>
      cases c <;> cases k <;> intro h <;>
        first | (cases h; kd) | cases h
    case int s o => cases s <;> cases o <;> intro h <;> first | (cases h; kd) | cases h
    case eqz s => cases s <;> intro h <;> (cases h; kd)
    case abs s => cases s <;> intro h <;> (cases h; kd)
    case neg s => cases s <;> intro h <;> (cases h; kd)
    case round s o => cases s <;> cases o <;> intro h <;> (cases h; kd)
    case trunc o => cases o <;> cases a <;> intro h <;> first | (cases h; kd) | cases h
    case truncSat o => cases o <;> cases a <;> intro h <;> first | (cases h; kd) | cases h
    case convert x y z =>
      cases x <;> cases y <;> cases z <;> cases a <;> intro h <;> first | (cases h; kd) | cases h
    case reinterpIF s => cases s <;> cases a <;> intro h <;> first | (cases h; kd) | cases h
    case reinterpFI s => cases s <;> cases a <;> intro h <;> first | (cases h; kd) | cases h
    all_goals cases a <;> intro h <;> first | (cases h; kd) | cases h
  case op2 op d a b =>
    cases op
    case int s o => cases s <;> cases o <;> intro h <;> (cases h; kd)
    case rel s o => cases s <;> cases o <;> intro h <;> (cases h; kd)
    case arith s o => cases s <;> cases o <;> intro h <;> (cases h; kd)
    case frel s o => cases s <;> cases o <;> intro h <;> (cases h; kd)
    all_goals rename_i s; cases s <;> intro h <;> (cases h; kd)
  case load op d a off => intro h; cases h; cases op <;> kd
  case store op a v off => intro h; cases h; cases op <;> kd
  case select c d v1 v2 x => cases c <;> intro h <;> first | (cases h; kd) | cases h
  case globalGet c d g => cases c <;> intro h <;> first | (cases h; kd) | cases h
  case globalSet c d g => cases c <;> intro h <;> first | (cases h; kd) | cases h
  case block l => intro h; cases h; cases l <;> kd
  case refLocalSet s l =>
    intro h; cases h
    cases k
    all_goals kd
  all_goals intro h; cases h; kd

/-- C60, part.  The filter of `--trace-events` passes exactly the instructions of the chosen kinds: all, stores, loads, calls
of functions of the module, branches. -/
theorem trace_filter {k : Copy} {i : Instr} {r : Raw} (h : emitted k i = some r) (c : TraceConfig) :
    c.shouldTrace r.handlerIndex = true ↔ .all ∈ c.events ∨ (.store ∈ c.events ∧ isStore i = true) ∨
      (.load ∈ c.events ∧ isLoad i = true) ∨ (.call ∈ c.events ∧ isCall i = true ∧ ∀ x ps y, i ≠ .callWasi x ps y) ∨
      (.branch ∈ c.events ∧ isBranch i = true) := by
  have own : isOwnCall i = true ↔ isCall i = true ∧ ∀ x ps y, i ≠ .callWasi x ps y := by
    cases i <;> simp [isOwnCall, isCall]
  have key : ∀ e : TraceEvent, e.hits r.handlerIndex = true ↔ e = .all ∨ (e = .store ∧ isStore i = true) ∨
      (e = .load ∧ isLoad i = true) ∨ (e = .call ∧ isCall i = true ∧ ∀ x ps y, i ≠ .callWasi x ps y) ∨
      (e = .branch ∧ isBranch i = true) := by
    obtain ⟨h1, h2, h3, h4⟩ := hits_kind h
    rw [← own]
    intro e
    cases e
    · simp [TraceEvent.hits]
    · rw [h1]; simp
    · rw [h2]; simp
    · rw [h3]; simp
    · rw [h4]; simp
  simp only [TraceConfig.shouldTrace, Bool.or_eq_true, List.contains_iff_mem, List.any_eq_true, key]
  constructor
  · rintro (h | ⟨e, he, rfl | ⟨rfl, h⟩ | ⟨rfl, h⟩ | ⟨rfl, h⟩ | ⟨rfl, h⟩⟩)
    · exact .inl h
    · exact .inl he
    · exact .inr (.inl ⟨he, h⟩)
    · exact .inr (.inr (.inl ⟨he, h⟩))
    · exact .inr (.inr (.inr (.inl ⟨he, h⟩)))
    · exact .inr (.inr (.inr (.inr ⟨he, h⟩)))
  · rintro (h | ⟨he, h⟩ | ⟨he, h⟩ | ⟨he, h⟩ | ⟨he, h⟩)
    · exact .inl h
    · exact .inr ⟨_, he, .inr (.inl ⟨rfl, h⟩)⟩
    · exact .inr ⟨_, he, .inr (.inr (.inl ⟨rfl, h⟩))⟩
    · exact .inr ⟨_, he, .inr (.inr (.inr (.inl ⟨rfl, h⟩)))⟩
    · exact .inr ⟨_, he, .inr (.inr (.inr (.inr ⟨rfl, h⟩)))⟩

example : ∃ r, emitted .get (.store .i32_8 (.reg 0) 1 0) = some r ∧
    (TraceConfig.new (some ["Store"]) none).shouldTrace r.handlerIndex = true ∧
    (TraceConfig.new (some ["branch"]) none).shouldTrace r.handlerIndex = false := ⟨_, rfl, by decide +kernel, by decide +kernel⟩

/-- the name of an event kind on the command line -/
def eventName : TraceEvent → String | .all => "all" | .store => "store" | .load => "load" | .call => "call" | .branch => "branch"
/-- the name of a resource on the command line -/
def resourceName : TraceResource → String
  | .pc => "pc" | .regs => "regs" | .memory => "memory" | .locals => "locals" | .globals => "globals"

/-- C60, part.  The events and resources selected are exactly those named on the command line, in upper or lower case. -/
theorem trace_names (es rs : List String) :
    (∀ e, e ∈ (TraceConfig.new (some es) (some rs)).events ↔ ∃ s ∈ es, s.toLower = eventName e) ∧
    (∀ x, x ∈ (TraceConfig.new (some es) (some rs)).resources ↔ ∃ s ∈ rs, s.toLower = resourceName x) := by
  have h1 : ∀ s e, TraceEvent.fromStr s = some e ↔ s.toLower = eventName e := by
    intro s e
    unfold TraceEvent.fromStr
    generalize s.toLower = t
    cases e <;> simp only [eventName] <;> (repeat' split) <;> simp_all
  have h2 : ∀ s e, TraceResource.fromStr s = some e ↔ s.toLower = resourceName e := by
    intro s e
    unfold TraceResource.fromStr
    generalize s.toLower = t
    cases e <;> simp only [resourceName] <;> (repeat' split) <;> simp_all
  refine ⟨fun e => ?_, fun x => ?_⟩
  · simp only [TraceConfig.new, List.mem_filterMap, h1]
  · simp only [TraceConfig.new, List.mem_filterMap, h2]

example : (TraceConfig.new (some ["LOAD", "Branch"]) (some ["PC", "stack"])).events = [.load, .branch] ∧
    (TraceConfig.new (some ["LOAD", "Branch"]) (some ["PC", "stack"])).resources = [.pc] := by decide +kernel

/-- C60, part.  A line of the trace shows the position, the name and the chosen resources of the instruction: each of the
program counter, registers, locals and globals appears, unchanged, exactly if it was asked for. -/
theorem trace_line {R L G : Type} {c : TraceConfig} {ip h : Nat} {rf : R} {ls : L} {gs : G} {t : TraceLine R L G}
    (ht : c.line ip h rf ls gs = some t) :
    t.instr = traceName h ∧ (t.pc = some ip ↔ .pc ∈ c.resources) ∧ (t.regs = some rf ↔ .regs ∈ c.resources) ∧
    (t.locals = some ls ↔ .locals ∈ c.resources) ∧ (t.globals = some gs ↔ .globals ∈ c.resources) := by
  unfold TraceConfig.line at ht
  split at ht
  · cases ht
    refine ⟨rfl, ?_, ?_, ?_, ?_⟩ <;> simp [List.contains_iff_mem]
  · cases ht

/-- C60, part.  Without `--trace-events` and `--trace-resource`, every instruction is selected, with everything but the
memory. -/
theorem trace_default (h : Nat) : (TraceConfig.new none none).shouldTrace h = true ∧
    ∀ x, x ∈ (TraceConfig.new none none).resources ↔ x ≠ .memory := by
  refine ⟨rfl, fun x => ?_⟩
  cases x <;> simp [TraceConfig.new]

/-- C60 is false of the code.  Nothing is ever written to the trace; names that are not known are dropped silently, among
them the `stack` of the option's own help text, so that such a configuration selects nothing; a request for the memory
changes no line; and calls of WASI functions are not calls for the filter. -/
theorem trace_violated :
    (∀ (c : TraceConfig) (executed : List (Nat × Nat)), runTrace (R := Unit) (L := Unit) (G := Unit) (some c) executed = []) ∧
    (∀ h, (TraceConfig.new (some ["calls"]) none).shouldTrace h = false) ∧
    (TraceConfig.new none (some ["stack"])).resources = [] ∧
    (∀ (es : Option (List String)) ip h (rf ls gs : Nat),
      (TraceConfig.new es (some ["memory"])).line ip h rf ls gs = (TraceConfig.new es (some [])).line ip h rf ls gs) ∧
    ∃ r, emitted .get (.callWasi 0 [] none) = some r ∧ (TraceConfig.new (some ["call"]) none).shouldTrace r.handlerIndex = false := by
  refine ⟨fun _ _ => rfl, fun h => ?_, by decide +kernel, fun es ip h rf ls gs => ?_, _, rfl, by decide +kernel⟩
  · have : (TraceConfig.new (some ["calls"]) none).events = [] := by decide +kernel
    simp [TraceConfig.shouldTrace, this]
  · have h1 : (TraceConfig.new es (some ["memory"])).resources = [.memory] := by
      show List.filterMap TraceResource.fromStr ["memory"] = _
      decide +kernel
    have h2 : (TraceConfig.new es (some ["memory"])).events = (TraceConfig.new es (some [])).events := rfl
    have h3 : (TraceConfig.new es (some [])).resources = [] := rfl
    have c1 : ([TraceResource.memory].contains .pc) = false := rfl
    have c2 : ([TraceResource.memory].contains .regs) = false := rfl
    have c3 : ([TraceResource.memory].contains .locals) = false := rfl
    have c4 : ([TraceResource.memory].contains .globals) = false := rfl
    simp only [TraceConfig.line, TraceConfig.shouldTrace, h1, h2, h3, c1, c2, c3, c4, List.contains_nil]

end Verif.Props
