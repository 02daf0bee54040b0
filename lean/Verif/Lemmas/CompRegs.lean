import Verif.Lemmas.CompExt
/-
The register allocator on typed stacks: which registers hold the entries of a WebAssembly operand stack.
-/
namespace Verif.Lemmas
open Verif.Model Verif.Spec Verif.Props

/-- first free index of each bank above a stack of these types -/
def dep (b : Cls → Nat) (ts : List Cls) : Cls → Nat := fun c => b c + ts.count c

/-- registers of a typed stack (top first) -/
def sops (b : Cls → Nat) : List Cls → List SOp
  | [] => []
  | c :: ts => sr c (dep b ts c) :: sops b ts

/-- consecutive registers, without truncation -/
def sqr (f : Cls → Nat) : List Cls → List Reg
  | [] => []
  | c :: cs => ⟨c, f c⟩ :: sqr (dep f [c]) cs

theorem dep_nil (b : Cls → Nat) : dep b [] = b := by funext c; simp [dep]

theorem dep_append (b : Cls → Nat) (x y : List Cls) : dep b (x ++ y) = dep (dep b y) x := by
  funext c; simp only [dep, List.count_append]; omega

theorem dep_cons (b : Cls → Nat) (c : Cls) (y : List Cls) : dep b (c :: y) = dep (dep b y) [c] := dep_append b [c] y

theorem dep_reverse (b : Cls → Nat) (x : List Cls) : dep b x.reverse = dep b x := by
  funext c; simp only [dep, List.count_reverse]

theorem upd_dep (f : Cls → Nat) (c : Cls) : upd f c (f c + 1) = dep f [c] := by
  funext d
  by_cases h : d = c
  · subst h; simp [dep]
  · rw [upd_ne _ _ _ _ h]; simp [dep, List.count_cons, Ne.symm h]

theorem sqr_length : ∀ (ts : List Cls) (f : Cls → Nat), (sqr f ts).length = ts.length
  | [], _ => rfl
  | c :: ts, f => by simp [sqr, sqr_length ts]

theorem sqr_cls : ∀ (ts : List Cls) (f : Cls → Nat), (sqr f ts).map (·.cls) = ts
  | [], _ => rfl
  | c :: ts, f => by simp [sqr, sqr_cls ts]

theorem sqr_get : ∀ (ts : List Cls) (f : Cls → Nat) (i : Nat) (c : Cls), ts[i]? = some c →
    (sqr f ts)[i]? = some ⟨c, f c + (ts.take i).count c⟩
  | [], f, i, c, h => by simp at h
  | d :: ts, f, 0, c, h => by simp at h; subst h; simp [sqr]
  | d :: ts, f, i + 1, c, h => by
    simp only [List.getElem?_cons_succ] at h
    simp only [sqr, List.getElem?_cons_succ, List.take_succ_cons]
    rw [sqr_get ts _ i c h]
    simp only [dep, List.count_cons, List.count_nil]
    congr 2; omega

theorem sqr_append : ∀ (x y : List Cls) (f : Cls → Nat), sqr f (x ++ y) = sqr f x ++ sqr (dep f x) y
  | [], y, f => by simp [sqr, dep_nil]
  | c :: x, y, f => by
    simp only [List.cons_append, sqr, sqr_append x y]
    congr 3
    rw [← dep_append]
    funext d; simp only [dep, List.count_append, List.count_cons, List.count_nil]; omega

theorem sqr_mem {ts : List Cls} {f : Cls → Nat} {x : Reg} (h : x ∈ sqr f ts) : f x.cls ≤ x.idx ∧ x.idx < dep f ts x.cls := by
  induction ts generalizing f with
  | nil => simp [sqr] at h
  | cons c ts ih =>
    rcases List.mem_cons.1 h with rfl | h
    · simp [dep]
    · have := ih h
      simp only [dep, List.count_cons, List.count_nil] at this ⊢
      omega

theorem sqr_nodup : ∀ (ts : List Cls) (f : Cls → Nat), (sqr f ts).Nodup
  | [], _ => List.nodup_nil
  | c :: ts, f => by
    refine List.nodup_cons.2 ⟨fun h => ?_, sqr_nodup ts _⟩
    have := (sqr_mem h).1
    simp [dep] at this
    omega

theorem seqRegs_sqr : ∀ (ts : List Cls) (f : Cls → Nat), (∀ c, dep f ts c ≤ 65536) → Alloc.seqRegs f ts = sqr f ts
  | [], _, _ => rfl
  | c :: ts, f, h => by
    simp only [Alloc.seqRegs, sqr, upd_dep]
    rw [seqRegs_sqr ts]
    · have := h c
      simp only [dep, List.count_cons, beq_self_eq_true, if_true] at this
      rw [Alloc.mkReg, Nat.mod_eq_of_lt (by omega)]
    · intro d
      have := h d
      rw [dep_cons] at this
      simp only [dep, List.count_cons, List.count_nil] at this ⊢
      omega

theorem sops_sregs : ∀ (x ts : List Cls) (b : Cls → Nat), sops b (x.reverse ++ ts) = sregs (sqr (dep b ts) x) ++ sops b ts
  | [], ts, b => by simp [sqr, sregs]
  | c :: x, ts, b => by
    rw [List.reverse_cons, List.append_assoc, List.singleton_append, sops_sregs x (c :: ts) b, dep_cons]
    simp [sqr, sregs, sops, SOp.ofReg]

theorem sops_mem {ts : List Cls} {b : Cls → Nat} {x : SOp} (h : x ∈ sops b ts) : ∃ c i, x = sr c i ∧ b c ≤ i ∧ i < dep b ts c := by
  induction ts with
  | nil => simp [sops] at h
  | cons c ts ih =>
    rcases List.mem_cons.1 h with rfl | h
    · exact ⟨c, _, rfl, by simp [dep], by simp [dep]⟩
    · obtain ⟨d, i, rfl, h1, h2⟩ := ih h
      refine ⟨d, i, rfl, h1, ?_⟩
      simp only [dep, List.count_cons] at h2 ⊢
      omega

theorem sops_regs (b : Cls → Nat) (ts : List Cls) : RegsOnly (sops b ts) := by
  intro x hx
  obtain ⟨c, i, rfl, _, _⟩ := sops_mem hx
  exact ⟨⟨c, i⟩, rfl⟩

theorem sops_cls : ∀ (b : Cls → Nat) (ts : List Cls), (sops b ts).map (·.cls) = ts
  | _, [] => rfl
  | b, c :: ts => by simp [sops, sops_cls b ts]

/-- the allocator holds a stack of types `ts` above `bs` -/
structure AOk (b : Cls → Nat) (bs : List Cls) (a : Alloc) (ts : List Cls) : Prop where
  types : a.types = ts ++ bs
  depth : a.depth = dep b ts
  le : ∀ c, a.depth c ≤ a.maxDepth c

/-- no truncation -/
def Small (a : Alloc) : Prop := ∀ c, a.maxDepth c ≤ 65536

theorem AOk.push {b : Cls → Nat} {bs ts : List Cls} {a : Alloc} (h : AOk b bs a ts) (c : Cls) : AOk b bs (a.push c).2 (c :: ts) := by
  refine ⟨by simp [Alloc.push, h.types], ?_, fun d => ?_⟩
  · simp only [Alloc.push]; rw [upd_dep, h.depth, ← dep_cons]
  · have := h.le d
    simp only [Alloc.push]
    by_cases e : d = c
    · subst e; rw [upd_same, upd_same]; omega
    · rw [upd_ne _ _ _ _ e, upd_ne _ _ _ _ e]; exact this

theorem AOk.pushReg {b : Cls → Nat} {bs ts : List Cls} {a : Alloc} (h : AOk b bs a ts) {c : Cls} (hs : Small (a.push c).2) :
    (a.push c).1 = ⟨c, dep b ts c⟩ := by
  have h1 := (h.push c).le c
  have h2 := hs c
  rw [(h.push c).depth] at h1
  simp only [dep, List.count_cons, beq_self_eq_true, if_true] at h1
  simp only [Alloc.push, Alloc.mkReg, h.depth]
  rw [Nat.mod_eq_of_lt (by simp only [dep]; omega)]

theorem AOk.pop {b : Cls → Nat} {bs ts : List Cls} {a : Alloc} {c : Cls} (h : AOk b bs a (c :: ts)) : AOk b bs (a.pop c).2 ts := by
  refine ⟨by simp [Alloc.pop, h.types], ?_, fun d => ?_⟩
  · funext d
    simp only [Alloc.pop, h.depth]
    by_cases e : d = c
    · subst e; rw [upd_same]; simp [dep]
    · rw [upd_ne _ _ _ _ e]; simp [dep, List.count_cons, Ne.symm e]
  · have := h.le d
    simp only [Alloc.pop]
    by_cases e : d = c
    · subst e; rw [upd_same]; omega
    · rw [upd_ne _ _ _ _ e]; exact this

theorem AOk.lt {b : Cls → Nat} {bs ts : List Cls} {a : Alloc} {c : Cls} (h : AOk b bs a (c :: ts)) : dep b ts c < a.maxDepth c := by
  have := h.le c
  rw [h.depth] at this
  simp only [dep, List.count_cons, beq_self_eq_true, if_true] at this ⊢
  omega

theorem AOk.popReg {b : Cls → Nat} {bs ts : List Cls} {a : Alloc} {c : Cls} (h : AOk b bs a (c :: ts)) (hs : Small a) :
    (a.pop c).1 = ⟨c, dep b ts c⟩ := by
  have h1 := h.lt
  have h2 := hs c
  simp only [Alloc.pop, Alloc.mkReg, h.depth]
  have : dep b (c :: ts) c - 1 = dep b ts c := by simp [dep]
  rw [this, Nat.mod_eq_of_lt (by omega)]

theorem AOk.peek {b : Cls → Nat} {bs ts : List Cls} {a : Alloc} {c : Cls} (h : AOk b bs a (c :: ts)) (hs : Small a) :
    a.peek c = some ⟨c, dep b ts c⟩ := by
  have h1 := h.popReg hs
  simp only [Alloc.pop] at h1
  rw [Alloc.peek, h1, if_pos]
  rw [h.depth]; simp [dep]; omega

theorem small_of_le {a a' : Alloc} (h : Small a) (hl : ∀ c, a'.maxDepth c ≤ a.maxDepth c) : Small a' := fun c => Nat.le_trans (hl c) (h c)

theorem AOk.pushAll {b : Cls → Nat} {bs : List Cls} : ∀ (x : List Cls) {ts : List Cls} {a : Alloc}, AOk b bs a ts →
    Small (Model.pushAll a x).2 → AOk b bs (Model.pushAll a x).2 (x.reverse ++ ts) ∧ (Model.pushAll a x).1 = sqr (dep b ts) x
  | [], ts, a, h, _ => ⟨by simpa [Model.pushAll] using h, rfl⟩
  | c :: x, ts, a, h, hs => by
    simp only [Model.pushAll] at hs ⊢
    obtain ⟨h1, h2⟩ := AOk.pushAll x (h.push c) hs
    refine ⟨by rw [List.reverse_cons, List.append_assoc]; exact h1, ?_⟩
    rw [h2, h.pushReg (small_of_le hs (max_pushAll x _)), dep_cons]
    rfl

theorem AOk.popAll {b : Cls → Nat} {bs : List Cls} : ∀ (x : List Cls) {ts : List Cls} {a : Alloc}, AOk b bs a (x ++ ts) →
    AOk b bs (Model.popAll a x) ts
  | [], ts, a, h => h
  | c :: x, ts, a, h => AOk.popAll x (AOk.pop h)

theorem AOk.popParams {b : Cls → Nat} {bs : List Cls} : ∀ (x : List Cls) {ts : List Cls} {a : Alloc}, AOk b bs a (x ++ ts) →
    Small a → AOk b bs (Model.popParams a x).2 ts ∧ (Model.popParams a x).1 = sqr (dep b ts) x.reverse
  | [], ts, a, h, _ => ⟨h, rfl⟩
  | c :: x, ts, a, h, hs => by
    obtain ⟨h1, h2⟩ := AOk.popParams x (AOk.pop h) hs
    refine ⟨h1, ?_⟩
    simp only [Model.popParams]
    rw [h2, List.reverse_cons, sqr_append, AOk.peek h hs, dep_reverse, ← dep_append]
    rfl

theorem AOk.peekRegs {b : Cls → Nat} {bs x ts : List Cls} {a : Alloc} (h : AOk b bs a (x.reverse ++ ts)) (hs : Small a) :
    a.peekRegs x = sqr (dep b ts) x := by
  have e : (fun c => a.depth c - x.count c) = dep b ts := by
    funext c
    rw [h.depth, dep_append, dep_reverse]
    simp only [dep]; omega
  rw [Alloc.peekRegs, e, seqRegs_sqr]
  intro c
  have h1 := h.le c
  have h2 := hs c
  rw [h.depth, dep_append, dep_reverse] at h1
  omega

theorem AOk.restore {b : Cls → Nat} {bs rs ts : List Cls} {a : Alloc} (h : AOk (dep b rs) (rs ++ bs) a ts) :
    AOk b bs (a.restore ⟨dep b rs, (rs ++ bs).length⟩) rs := by
  refine ⟨?_, rfl, fun c => ?_⟩
  · simp only [Alloc.restore, h.types, List.length_append]
    rw [show ts.length + (rs.length + bs.length) - (rs.length + bs.length) = ts.length by omega, List.drop_left]
  · have := h.le c
    rw [h.depth] at this
    simp only [Alloc.restore, dep] at this ⊢
    omega

theorem AOk.reopen {b : Cls → Nat} {bs rs ts : List Cls} {a : Alloc} (h : AOk b bs a (ts ++ rs)) : AOk (dep b rs) (rs ++ bs) a ts :=
  ⟨by rw [h.types, List.append_assoc], by rw [h.depth, dep_append], h.le⟩

/-- every open bracket's operands lie below `b` -/
def Low (b : Cls → Nat) (Γ : List Lab) : Prop := ∀ l ∈ Γ, ∀ x ∈ l.seg, ∃ c i, x = sr c i ∧ i < b c

theorem free_of {b : Cls → Nat} {Γ : List Lab} (hl : Low b Γ) {r : List SOp} {c : Cls} {i : Nat}
    (hr : ∀ x ∈ r, ∀ d j, x = sr d j → d = c → j < i) (hi : b c ≤ i) : Free Γ r ⟨c, i⟩ := by
  refine ⟨fun h => ?_, fun l hl' h => ?_⟩
  · have := hr _ h c i rfl rfl; omega
  · obtain ⟨d, j, he, hj⟩ := hl l hl' _ h
    simp only [SOp.ofReg, SOp.mk.injEq] at he
    obtain ⟨rfl, he⟩ := he
    cases he
    omega

theorem sr_inj {c d : Cls} {i j : Nat} (h : sr c i = sr d j) : c = d ∧ i = j := by
  simp only [SOp.mk.injEq] at h
  obtain ⟨rfl, h⟩ := h
  cases h
  exact ⟨rfl, rfl⟩

theorem free_sops {b : Cls → Nat} {Γ : List Lab} (hl : Low b Γ) (ts : List Cls) {c : Cls} {i : Nat} (hi : dep b ts c ≤ i) :
    Free Γ (sops b ts) ⟨c, i⟩ := by
  refine free_of hl (fun x hx d j e hd => ?_) (by simp only [dep] at hi; omega)
  obtain ⟨d', j', rfl, _, h2⟩ := sops_mem hx
  obtain ⟨rfl, rfl⟩ := sr_inj e
  subst hd
  omega

theorem fresh_sqr {b : Cls → Nat} {Γ : List Lab} (hl : Low b Γ) (ts rs : List Cls) {W : Cls → Nat}
    (hw : ∀ c, dep b (rs ++ ts) c ≤ W c) (hv : ∀ c ∈ rs, c ≠ .v128) : Fresh W Γ (sops b ts) (sqr (dep b ts) rs) := by
  refine ⟨sqr_nodup _ _, fun x hx => ⟨?_, ?_, ?_⟩⟩
  · exact free_sops hl ts (sqr_mem hx).1
  · have := (sqr_mem hx).2
    have h2 := hw x.cls
    rw [dep_append] at h2
    omega
  · have h1 : x.cls ∈ (sqr (dep b ts) rs).map (·.cls) := List.mem_map_of_mem hx
    rw [sqr_cls] at h1
    exact hv _ h1

theorem moveOk_sqr {W : Cls → Nat} {f g : Cls → Nat} (ts : List Cls) (h : ∀ c, g c ≤ f c) (hf : ∀ c, dep f ts c ≤ W c) :
    MoveOk W (sqr f ts) (sqr g ts) := by
  refine ⟨by rw [sqr_cls, sqr_cls], sqr_nodup _ _, fun i j hi hj hij e => ?_, fun x hx => ?_⟩
  · have hj' : j < ts.length := by rw [← sqr_length ts f]; exact hj
    have hi' : i < ts.length := by omega
    have h1 := sqr_get ts g i ts[i] (List.getElem?_eq_getElem hi')
    have h2 := sqr_get ts f j ts[j] (List.getElem?_eq_getElem hj')
    rw [List.getElem?_eq_getElem hi, Option.some.injEq] at h1
    rw [List.getElem?_eq_getElem hj, Option.some.injEq] at h2
    rw [h1, h2, Reg.mk.injEq] at e
    obtain ⟨e1, e2⟩ := e
    have h3 := h ts[j]
    rw [e1] at e2
    have h4 : (ts.take (i + 1)).count ts[j] ≤ (ts.take j).count ts[j] :=
      List.Sublist.count_le _ (List.take_sublist_take_left (by omega))
    rw [List.take_add_one, List.getElem?_eq_getElem hi', Option.toList, List.count_append, e1] at h4
    simp at h4
    omega
  · rcases List.mem_append.1 hx with hx | hx
    · have := (sqr_mem hx).2
      have := hf x.cls
      omega
    · have h1 := (sqr_mem hx).2
      have h2 := hf x.cls
      have h3 := h x.cls
      simp only [dep] at h1 h2
      omega

end Verif.Lemmas
