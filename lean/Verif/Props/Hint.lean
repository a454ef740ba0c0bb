import Verif.Model.Api
import Verif.Proof.Hint
import Verif.Props.Lifecycle
import Verif.Props.Finish
/-!
# Growing the index never loses or invents data (C04)
-/
namespace Annoy

/-- The operations on the memory of an index under construction. -/
inductive MemOp where
  | reallocate (byteSize : Nat)
  | free
  | write (x : Nat) (v : Byte)

/-- A caller only writes inside the block. -/
def MemOp.exec (a : Alloc) : MemOp → Alloc
  | .reallocate n => a.reallocate n
  | .free => a.free
  | .write x v => if x < a.size then { a with data := ⟨fun y => if y = x then v else a.data y⟩ } else a

/-- What byte `x` must be: the last value written since the last `Free`, 0 if none.  `size` is the size of the block so
far.  Newest operation first. -/
def expectedByte (x : Nat) : List MemOp → Byte
  | [] => 0
  | .reallocate _ :: ops => expectedByte x ops
  | .free :: _ => 0
  | .write y v :: ops => if x = y ∧ y < expectedSize ops then v else expectedByte x ops
where
  /-- Largest size asked for since the last `Free`. -/
  expectedSize : List MemOp → Nat
    | [] => 0
    | .reallocate n :: ops => max n (expectedSize ops)
    | .free :: _ => 0
    | .write _ _ :: ops => expectedSize ops

/-- **C04**, memory: after any sequence of `Reallocate`, `Free` and writes inside the block, the block is exactly as
large as the largest request since the last `Free`, and each byte is the last one written since then (0 if there was
none): growing keeps the old bytes, new bytes are zero, and a smaller request does not shrink. -/
theorem C04_memory (ops : List MemOp) :
    (ops.foldl MemOp.exec Alloc.empty).size = expectedByte.expectedSize ops.reverse ∧
    ∀ x, (ops.foldl MemOp.exec Alloc.empty).data x = expectedByte x ops.reverse := by
  suffices h : ∀ rops : List MemOp, let a := rops.foldr (fun o a => MemOp.exec a o) Alloc.empty
      a.size = expectedByte.expectedSize rops ∧ (∀ x, a.data x = expectedByte x rops) ∧
      (∀ x, a.size ≤ x → a.data x = 0) ∧ (a.present = false → a.size = 0) by
    have := h ops.reverse
    rw [List.foldr_reverse] at this
    exact ⟨this.1, this.2.1⟩
  intro rops
  induction rops with
  | nil => exact ⟨rfl, fun _ => rfl, fun _ _ => rfl, fun _ => rfl⟩
  | cons o rops ih =>
    obtain ⟨h1, h2, h3, h4⟩ := ih
    rw [List.foldr_cons]
    generalize rops.foldr (fun o a => MemOp.exec a o) Alloc.empty = a at h1 h2 h3 h4
    cases o with
    | free => exact ⟨rfl, fun _ => rfl, fun _ _ => rfl, fun _ => rfl⟩
    | reallocate n =>
      simp only [MemOp.exec, Alloc.reallocate, expectedByte, expectedByte.expectedSize]
      split
      · next h => exact ⟨by omega, h2, h3, h4⟩
      · next h =>
        have hn : a.size ≤ n := by
          by_contra hc
          apply h
          refine ⟨?_, by omega⟩
          cases hp : a.present with
          | true => rfl
          | false => have := h4 hp; omega
        refine ⟨by dsimp only; omega, fun x => ?_, fun x hx => ?_, fun h => by cases h⟩
        · show (if x < a.size then a.data x else 0) = _
          split
          · exact h2 x
          · rw [← h2, h3 x (by omega)]
        · show (if x < a.size then a.data x else 0) = 0
          rw [if_neg (by dsimp only at hx; omega)]
    | write y v =>
      simp only [MemOp.exec, expectedByte, expectedByte.expectedSize]
      split
      · next h =>
        refine ⟨h1, fun x => ?_, fun x hx => ?_, h4⟩
        · show (if x = y then v else a.data x) = _
          rw [← h1, h2]
          by_cases hx : x = y
          · rw [if_pos hx, if_pos ⟨hx, h⟩]
          · rw [if_neg hx, if_neg fun h => hx h.1]
        · show (if x = y then v else a.data x) = 0
          rw [if_neg (by dsimp only at hx; omega)]
          exact h3 x hx
      · next h =>
        refine ⟨h1, fun x => ?_, h3, h4⟩
        rw [← h1, if_neg fun k => h k.2]
        exact h2 x

/-- Growing from 3 to 5 bytes keeps the written byte; `Free` forgets it. -/
example : expectedByte 2 [MemOp.reallocate 5, .write 2 7, .reallocate 3] = 7 ∧
    expectedByte.expectedSize [MemOp.reallocate 5, .write 2 7, .reallocate 3] = 5 ∧
    expectedByte 2 [MemOp.reallocate 5, .free, .write 2 7, .reallocate 3] = 0 := by decide

namespace Idx
variable {c : Cfg} {s t : Idx c}

namespace Le

theorem close (h : s.Le t) : t.close = s.close := by
  unfold Idx.close
  rw [h.eq]
  rfl

theorem refl_close (s : Idx c) : s.close.Le s.close :=
  ⟨rfl, le_rfl, id, fun _ _ => rfl, fun _ => rfl⟩

theorem load {bk : Backend} {w : World} {path : String} (h : s.Le t) : t.load bk w path = s.load bk w path := by
  unfold Idx.load
  rw [h.close]

/-- After `Load` nothing is left of the memory of the index under construction. -/
theorem load_alloc {bk : Backend} {w : World} {path : String} {e : GoErr} {s' : Idx c}
    (h : s.load bk w path = .ok (e, s')) : s'.alloc = .empty := by
  unfold Idx.load at h
  simp only [bind, Except.bind] at h
  split at h
  · cases h
  · split at h
    · cases h; rfl
    · split at h
      · cases h; rfl
      · split at h
        · cases h
        · split at h
          · cases h
          · split at h
            · cases h
            · cases h; rfl

theorem self_of_empty {s : Idx c} (h : s.alloc = .empty) : s.Le s :=
  ⟨by cases s; dsimp only at h; subst h; rfl, le_rfl, id, fun _ _ => by rw [h]; rfl, fun _ => by rw [h]; rfl⟩

theorem saveBytes {w : World} (h : s.Le t) {x} (e : s.saveBytes w = .ok x) : t.saveBytes w = .ok x := by
  unfold Idx.saveBytes at e ⊢
  rw [h.nodes, h.nNodes]
  dsimp only at e ⊢
  split
  · next hn => rw [hn] at e; exact e
  · next hn =>
    rw [hn] at e
    dsimp only at e
    split at e
    · next h1 =>
      have := h.size
      rw [if_pos (by omega)]
      cases e
      unfold Alloc.block
      unfold Block.prefix
      dsimp only
      rw [h.data]
    · cases e
  · next hn => rw [hn] at e; exact e
  · next hn => rw [hn] at e; exact e

theorem save {bk : Backend} {w w' : World} {path : String} {e : GoErr} {s' : Idx c} (h : s.Le t)
    (hs : s.save bk w path = .ok (e, s', w')) : ∃ t', t.save bk w path = .ok (e, t', w') ∧ s'.Le t' := by
  unfold Idx.save at hs ⊢
  rw [h.built]
  split at hs
  · next h0 => cases hs; exact ⟨t, if_pos h0, h⟩
  · next h0 =>
    rw [if_neg h0]
    split at hs
    · next h1 h2 => cases hs; exact ⟨t, rfl, h⟩
    · next h1 inode w1 h2 =>
      simp only [bind, Except.bind] at hs ⊢
      split at hs
      · cases hs
      · next x hx =>
        rw [h.saveBytes hx]
        dsimp only
        split at hs
        · cases hs; exact ⟨t, rfl, h⟩
        · next bytes =>
          rw [h.load]
          split at hs
          · cases hs
          · next v hv =>
            cases hs
            exact ⟨_, rfl, self_of_empty (load_alloc hv)⟩

end Le

/-- As long as it can still be built, an index is in order. -/
def InOrder (s : Idx c) : Prop := s.built = false → s.loaded = false → ∃ m n, s.ItemInv m n

theorem load_unbuilt {bk : Backend} {w : World} {path : String} {e : GoErr} {s' : Idx c}
    (h : s.load bk w path = .ok (e, s')) (hb : s'.built = false) : s' = s.close ∨ s' = s.close.close := by
  unfold Idx.load at h
  simp only [bind, Except.bind] at h
  split at h
  · cases h
  · split at h
    · cases h; exact Or.inl rfl
    · split at h
      · cases h; exact Or.inr rfl
      · split at h
        · cases h
        · split at h
          · cases h
          · split at h
            · cases h
            · cases h; cases hb

theorem builds_built {numCPU : Nat} {trees workers : Int} {pol : BuildPolicy} {s' : Idx c}
    (h : s.Builds numCPU trees workers pol s') : s'.built = true ∧ s.built = false ∧ s.loaded = false := by
  have hs : ∀ {s1 : Idx c}, s.buildStart = .ok s1 → s.built = false ∧ s.loaded = false := by
    intro s1 h
    unfold buildStart at h
    split at h
    · cases h
    · split at h
      · cases h
      · next h1 h2 => exact ⟨by simpa using h2, by simpa using h1⟩
  cases h with
  | single rf tf lf h =>
    unfold build at h
    simp only [bind, Except.bind] at h
    split at h
    · cases h
    · next s1 h1 =>
      split at h
      · cases h
      · exact ⟨Stmt.buildFinish_flags h, hs h1⟩
  | multi hW h =>
    obtain ⟨s1, x, e1, _, _, e4⟩ := h
    exact ⟨Stmt.buildFinish_flags e4, hs e1⟩

end Idx

/-- `AddItem` stays inside the address range of the index type. -/
def Req.Legal {c : Cfg} : Req c → Prop
  | .addItem i _ => c.L.Fits (i + 1)
  | _ => True

section
variable {c : Cfg} {bk : Backend} {numCPU : Nat}

theorem inOrder_serves (hc : c.WF) {q : Req c} {a : Resp c} {x y : Env c} (hq : q.Legal) (h : Serves bk numCPU q x a y)
    (hx : x.idx.InOrder) : y.idx.InOrder := by
  cases h with
  | @addItem w s i v s' h =>
    intro hb hl
    obtain ⟨f1, f2⟩ := addItem_flags h
    dsimp only at hb hl
    have hv : v.length = c.L.f := by
      unfold Idx.addItem at h
      split at h
      · cases h
      · split at h
        · cases h
        · next h2 => simpa using h2
    obtain ⟨m, n, hi⟩ := hx (by rw [← f1]; exact hb) (by rw [← f2]; exact hl)
    obtain ⟨s1, e1, e2, _⟩ := hi.addItem hc i v hv hq
    dsimp only at e1
    rw [h] at e1
    cases e1
    exact ⟨_, _, e2⟩
  | build h =>
    intro hb
    obtain ⟨h1, _⟩ := Idx.builds_built h
    dsimp only at hb
    rw [h1] at hb
    cases hb
  | @save w s path e s' w' h =>
    intro hb hl
    unfold Idx.save at h
    split at h
    · cases h; exact hx hb hl
    · next hb0 =>
      exfalso
      apply hb0
      clear hx hb0
      dsimp only at hb
      split at h
      · cases h; exact hb
      · simp only [bind, Except.bind] at h
        split at h
        · cases h
        · split at h
          · cases h; exact hb
          · split at h
            · cases h
            · next v hv =>
              cases h
              rcases Idx.load_unbuilt hv hb with e | e <;>
              · rw [e] at hb; exact hb
  | load h =>
    intro hb hl
    dsimp only
    rcases Idx.load_unbuilt h hb with e | e <;>
    · rw [e]; exact ⟨_, _, closed_itemInv hc.layout _⟩
  | close => intro _ _; exact ⟨_, _, closed_itemInv hc.layout _⟩
  | getItem _ => exact hx
  | getDistance _ => exact hx
  | createContext => exact hx
  | byVector _ _ => exact hx
  | byItem _ _ => exact hx

theorem serves_le (hc : c.WF) {q : Req c} {a : Resp c} {x y : Env c} {t : Idx c} (h : Serves bk numCPU q x a y)
    (hx : x.idx.InOrder) (hl : x.idx.Le t) : ∃ t', Serves bk numCPU q ⟨x.world, t⟩ a ⟨y.world, t'⟩ ∧ y.idx.Le t' := by
  cases h with
  | addItem h =>
    obtain ⟨t', h1, h2⟩ := hl.addItem hc h
    exact ⟨t', .addItem h1, h2⟩
  | build h =>
    obtain ⟨_, h1, h2⟩ := Idx.builds_built h
    obtain ⟨m, n, hi⟩ := hx h1 h2
    obtain ⟨t', h1, h2⟩ := hl.builds hc hi.memOK (by rw [hi.nItems]; exact hi.n_le) h
    exact ⟨t', .build h1, h2⟩
  | save h =>
    obtain ⟨t', h1, h2⟩ := hl.save h
    exact ⟨t', .save h1, h2⟩
  | load h => exact ⟨_, .load (hl.load.trans h), Idx.Le.self_of_empty (Idx.Le.load_alloc h)⟩
  | close => exact ⟨_, .close, by rw [hl.close]; exact Idx.Le.refl_close _⟩
  | getItem h =>
    refine ⟨t, .getItem ?_, hl⟩
    unfold Idx.getItem at h ⊢
    refine bind_le h (fun a ha => getNode_le (hl.mem _) ha) fun a ha => ?_
    rw [← (hl.mem _).2]; exact ha
  | getDistance h =>
    refine ⟨t, .getDistance ?_, hl⟩
    unfold Idx.getDistance at h ⊢
    refine bind_le h (fun a ha => getNode_le (hl.mem _) ha) fun a ha => ?_
    refine bind_le ha (fun a ha => getNode_le (hl.mem _) ha) fun b hb => ?_
    rw [← (hl.mem _).2]; exact hb
  | @createContext w s =>
    refine ⟨t, ?_, hl⟩
    have : s.createContext = t.createContext := by
      unfold Idx.createContext
      rw [hl.batchMaxNNS, hl.nNodes]
    rw [this]
    exact .createContext
  | byVector fuel h =>
    refine ⟨t, .byVector fuel ?_, hl⟩
    unfold Idx.getNnsByVector at h ⊢
    rw [hl.nItems, hl.roots]
    exact run_le (hl.mem _) h
  | byItem fuel h =>
    refine ⟨t, .byItem fuel ?_, hl⟩
    unfold Idx.getNnsByItem at h ⊢
    refine bind_le h (fun a ha => getNode_le (hl.mem _) ha) fun a ha => ?_
    unfold Idx.getNnsByVector at ha ⊢
    rw [hl.nItems, hl.roots, ← (hl.mem _).2]
    exact run_le (hl.mem _) ha

theorem servesAll_le (hc : c.WF) {h : List (Req c × Resp c)} {x y : Env c} (hs : ServesAll bk numCPU h x y) :
    ∀ {t : Idx c}, (∀ p ∈ h, p.1.Legal) → x.idx.InOrder → x.idx.Le t →
      ∃ t', ServesAll bk numCPU h ⟨x.world, t⟩ ⟨y.world, t'⟩ ∧ y.idx.Le t' := by
  induction hs with
  | nil x => intro t _ _ hl; exact ⟨t, .nil _, hl⟩
  | @cons q a h x y z h1 _ ih =>
    intro t hq hx hl
    obtain ⟨t1, k1, k2⟩ := serves_le hc h1 hx hl
    obtain ⟨t2, k3, k4⟩ := ih (fun p hp => hq p (by simp [hp])) (inOrder_serves hc (hq (q, a) (by simp)) h1 hx) k2
    exact ⟨t2, .cons k1 k3, k4⟩

/-- **C04**, hint: whatever history of calls an index without a pre-allocation hint can serve, an index with
any hint can serve with the same answers and the same effect on the file system; either policy, both kinds of index memory. -/
theorem C04_hint (hc : c.WF) (w w' : World) (r : c.R.σ) (hint : Nat) (h : List (Req c × Resp c)) (s : Idx c)
    (hq : ∀ p ∈ h, p.1.Legal) (hs : ServesAll bk numCPU h ⟨w, Idx.new c r 0⟩ ⟨w', s⟩) :
    ∃ t, ServesAll bk numCPU h ⟨w, Idx.new c r hint⟩ ⟨w', t⟩ ∧
      t = { s with alloc := ⟨t.alloc.present, t.alloc.size, s.alloc.data⟩ } := by
  obtain ⟨t, h1, h2⟩ := servesAll_le hc hs hq (fun _ _ => ⟨_, _, Idx.ItemInv.new c hc.layout r 0⟩) (Idx.Le.new c r hint)
  exact ⟨t, h1, h2.eq⟩

/-- **C04**, hint, the other way round: when `Build` is sure to end (C14), the result of adding items and building is
the same for any two hints, apart from the size of the block. -/
theorem C04_hint_build (hc : c.WF) (ht : Conc.Total c) (hb : EventuallyBalanced c) (numCPU : Nat)
    (adds : List (Nat × List c.N.V)) (hl : LegalAdds c adds) (r : c.R.σ) (hint : Nat) (trees workers : Int)
    (hf : c.L.Fits (Idx.buildBound (slotCount adds) trees)) {t t' : Idx c}
    (h1 : (Idx.new c r hint).addAll adds = .ok t) (h2 : t.Builds numCPU trees workers .single t') :
    ∃ s s', (Idx.new c r 0).addAll adds = .ok s ∧ s.Builds numCPU trees workers .single s' ∧
      t' = { s' with alloc := ⟨t'.alloc.present, t'.alloc.size, s'.alloc.data⟩ } := by
  obtain ⟨s, rf, s', k1, k2⟩ := C14_finishes hc ht hb adds hl r 0 trees hf
  have hB := k2 rf _ _ le_rfl le_rfl le_rfl
  refine ⟨s, s', k1, .single _ _ _ hB, ?_⟩
  obtain ⟨t1, e1, l1⟩ := (Idx.Le.new c r hint).addAll hc adds k1
  rw [h1] at e1
  cases e1
  obtain ⟨s0, a1, a2, _⟩ := addAll_spec hc adds _ _ _ (Idx.ItemInv.new c hc.layout r 0) hl
  rw [k1] at a1
  cases a1
  obtain ⟨t2, e2, l2⟩ := l1.build hc a2.memOK (by rw [a2.nItems]; exact a2.n_le) hB
  cases h2 with
  | single rf tf lf h3 =>
    have := Idx.build_det h3 e2
    subst this
    exact l2.eq

theorem servesAll_adds (w : World) (adds : List (Nat × List c.N.V)) : ∀ {s s' : Idx c}, s.addAll adds = .ok s' →
    ∀ {h : List (Req c × Resp c)} {x : Env c}, ServesAll bk numCPU h ⟨w, s'⟩ x →
    ServesAll bk numCPU (adds.map (fun p => (.addItem p.1 p.2, .unit)) ++ h) ⟨w, s⟩ x := by
  induction adds with
  | nil => intro s s' e h x hx; cases e; exact hx
  | cons p adds ih =>
    intro s s' e h x hx
    unfold Idx.addAll at e
    simp only [bind, Except.bind] at e
    split at e
    · cases e
    · next s1 h1 => exact .cons (.addItem h1) (ih e hx)

/-- A history that meets the hypotheses of `C04_hint`: twenty items of length 12 are added, three trees are
built, and an item is read back. -/
example (w : World) : ∃ s v, ServesAll (c := alt32 12) .mmap 4
    ((longAdds 20).map (fun p => (.addItem p.1 p.2, .unit)) ++
      [(.build 3 1 .single, .unit), (.getItem 7, .vector v)]) ⟨w, Idx.new (alt32 12) false 0⟩ ⟨w, s⟩ ∧
    lastAdded (longAdds 20) 7 = some v := by
  obtain ⟨s, s', h0, h, _⟩ := C10_single (alt32_wf (f := 12) (by decide))
    (Conc.angular_total altRng_inRange (by decide)) (alt32_balanced 12) 4 (longAdds 20)
    (legalAdds_of (by decide +kernel)) false 0 3 1 (by decide +kernel)
  obtain ⟨v, hv⟩ : ∃ v, lastAdded (longAdds 20) 7 = some v := Option.isSome_iff_exists.1 (by decide +kernel)
  obtain ⟨N, B, _⟩ := h.built
  exact ⟨s', v, servesAll_adds w _ h0 (.cons (.build h.builds) (.cons (.getItem (B.getItem w hv)) (.nil _))), hv⟩

end
end Annoy
