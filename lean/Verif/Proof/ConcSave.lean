import Verif.Model.ConcSave
import Verif.Proof.ConcSearch
import Verif.Proof.SearchCongr
/-!
A step of a search on two memories that agree on the nodes it can reach.
-/
namespace Annoy
namespace ConcSave
open ConcSearch
variable {c : Cfg}

/-- The nodes in the hands of a search are in `P`. -/
def Inside (P : Nat → Prop) (x : Ctx c) : Task c → Prop
  | .collect q cnt => (∀ e ∈ q, P e.2) ∧ ∀ j ∈ x.nns.take cnt, P j
  | .sortIds cnt => ∀ j ∈ x.nns.take cnt, P j
  | .prepare len => ∀ j ∈ x.nns.take len, P j
  | .measure _ len _ _ _ => ∀ j ∈ x.nns.take len, P j
  | _ => True

theorem Inside.start {k : Call c} {P : Nat → Prop} {x : Ctx c} (h : ∀ r ∈ k.roots, P r) : Inside P x k.start := by
  refine ⟨fun e he => ?_, by simp⟩
  obtain ⟨r, hr', rfl⟩ := List.mem_map.1 ((Search.initQueue_perm k.roots).mem_iff.1 he)
  exact h r hr'

theorem mem_take_set {l : List Nat} {n i j : Nat} (h : j ∈ (l.set n i).take (n + 1)) : j ∈ l.take n ∨ j = i := by
  rw [List.take_set] at h
  obtain ⟨m, hm, rfl⟩ := List.mem_iff_getElem.1 h
  rw [List.getElem_set]
  split
  · exact Or.inr rfl
  · next hne =>
    left
    rw [List.getElem_take]
    simp only [List.length_set, List.length_take] at hm
    exact List.mem_iff_getElem.2 ⟨m, by simp; omega, by simp⟩

theorem mem_take_copyAt {l src : List Nat} {n j : Nat} (hn : n ≤ l.length) (h : j ∈ (Search.copyAt l n src).take (n + src.length)) :
    j ∈ l.take n ∨ j ∈ src := by
  unfold Search.copyAt at h
  rw [List.append_assoc, List.take_append, List.mem_append] at h
  rcases h with h | h
  · exact Or.inl (List.mem_of_mem_take h)
  · right
    rw [List.take_append, List.mem_append] at h
    rcases h with h | h
    · exact List.mem_of_mem_take (List.mem_of_mem_take h)
    · exfalso
      rw [List.length_take, List.length_take] at h
      have hl := List.length_pos_of_mem h
      rw [List.length_take, List.length_drop] at hl
      omega

theorem step_congr (hc : c.WF) {k : Call c} {mem' : Block} {n' : Nat} {P : Nat → Prop} (h : Search.Agree c k.mem mem' k.nItems n' P)
    {task : Task c} {x : Ctx c} (hin : Inside P x task) :
    Call.step { k with mem := mem', nItems := n' } task x = k.step task x ∧ Inside P (k.step task x).2 (k.step task x).1 := by
  cases task with
  | collect q cnt =>
    obtain ⟨hq, hnns⟩ := hin
    have hb : Call.budget { k with mem := mem', nItems := n' } = k.budget := rfl
    simp only [Call.step, hb]
    by_cases hlt : (cnt : Int) < k.budget
    · rw [if_pos hlt, if_pos hlt]
      cases hp : Heap.pop (pairLess c.N) q with
      | none => exact ⟨rfl, hnns⟩
      | some e =>
        obtain ⟨⟨d, i⟩, q'⟩ := e
        have hperm := Heap.pop_perm _ _ _ _ hp
        have hPi : P i := hq (d, i) (hperm.mem_iff.1 List.mem_cons_self)
        have hq' : ∀ x ∈ q', P x.2 := fun x hx => hq x (hperm.mem_iff.1 (List.mem_cons_of_mem _ hx))
        obtain ⟨a, ha, ha', hab⟩ := h.node i hPi
        have hnd := Search.nDesc_same hc hab
        simp only [ha, ha', ← hnd]
        have hit : (Node.nDesc c.L k.mem.get a = 1 ∧ i < k.nItems) ↔ (Node.nDesc c.L k.mem.get a = 1 ∧ i < n') :=
          and_congr_right fun h1 => h.item i hPi a ha h1
        by_cases hit1 : Node.nDesc c.L k.mem.get a = 1 ∧ i < k.nItems
        · rw [if_pos hit1, if_pos (hit.1 hit1)]
          refine ⟨rfl, ?_⟩
          by_cases hl : cnt < x.nns.length
          · rw [if_pos hl]
            refine ⟨hq', fun j hj => ?_⟩
            rcases mem_take_set hj with hj | rfl
            · exact hnns j hj
            · exact hPi
          · rw [if_neg hl]; trivial
        · rw [if_neg hit1, if_neg fun h' => hit1 (hit.2 h')]
          by_cases hK : Node.nDesc c.L k.mem.get a ≤ c.L.K
          · rw [if_pos hK, if_pos hK, ← Search.children_same hc hK hab]
            refine ⟨rfl, ?_⟩
            by_cases hl : cnt ≤ x.nns.length
            · rw [if_pos hl]
              refine ⟨hq', fun j hj => ?_⟩
              have e : Node.nDesc c.L k.mem.get a = (Node.getChildren c.L k.mem.get a).length := by simp [Node.getChildren]
              dsimp only at hj
              rw [e] at hj
              rcases mem_take_copyAt hl hj with hj | hj
              · exact hnns j hj
              · exact h.bucket i hPi a ha hK hit1 j hj
            · rw [if_neg hl]; trivial
          · rw [if_neg hK, if_neg hK, ← hc.margin k.mem.get a mem'.get a k.query hab]
            cases c.D.margin k.mem.get a k.query with
            | error e => exact ⟨rfl, trivial⟩
            | ok m =>
              have h2 := hc.layout.K_ge
              obtain ⟨hc0, hc1⟩ := h.inner i hPi a ha (by omega)
              simp only
              rw [← Search.child_same hc (by omega) hab, ← Search.child_same hc (by omega) hab]
              refine ⟨rfl, ?_, hnns⟩
              intro x hx
              rcases List.mem_cons.1 ((Heap.push_perm _ _ _).mem_iff.1 hx) with rfl | hx
              · exact hc0
              · rcases List.mem_cons.1 ((Heap.push_perm _ _ _).mem_iff.1 hx) with rfl | hx
                · exact hc1
                · exact hq' x hx
    · rw [if_neg hlt, if_neg hlt]
      exact ⟨rfl, hnns⟩
  | sortIds cnt =>
    refine ⟨rfl, ?_⟩
    simp only [Call.step]
    split
    · trivial
    · next hle =>
      intro j hj
      have hlen : (c.sortIds (x.nns.take cnt)).length = cnt := by
        rw [(hc.sortIds_perm _).length_eq, List.length_take]; omega
      dsimp only at hj
      rw [List.take_append, hlen, Nat.sub_self, List.take_zero, List.append_nil] at hj
      exact hin j ((hc.sortIds_perm _).mem_iff.1 (List.mem_of_mem_take hj))
  | prepare len =>
    refine ⟨rfl, ?_⟩
    simp only [Call.step]
    split
    · trivial
    · exact hin
  | measure vn len i cnt last =>
    simp only [Call.step]
    by_cases hi : i < len
    · rw [if_pos hi, if_pos hi]
      cases hj : x.nns[i]? with
      | none => exact ⟨rfl, trivial⟩
      | some j =>
        have hPj : P j := hin j (List.mem_iff_getElem?.2 ⟨i, by rw [List.getElem?_take, if_pos hi, hj]⟩)
        simp only
        by_cases hl : last = some j
        · rw [if_pos hl, if_pos hl]; exact ⟨rfl, hin⟩
        · rw [if_neg hl, if_neg hl]
          obtain ⟨a, ha, ha', hab⟩ := h.node j hPj
          have h3 := hc.layout.three_le
          have hsz := hc.layout.size_eq
          simp only [ha, ha', ← Search.nDesc_same hc hab]
          have hsame : SameItem c k.mem.get a mem'.get a := by
            refine ⟨Node.vec_congr c.C fun k hk => ?_, fun k _ hk => hab k (by omega)⟩
            have := hab (c.L.offV + k) (by omega)
            simpa [Nat.add_assoc] using this
          rw [hc.distance vn 0 k.mem.get a vn 0 mem'.get a (SameItem.refl c vn 0) hsame]
          refine ⟨rfl, ?_⟩
          split
          · split
            · exact hin
            · trivial
          · exact hin
    · rw [if_neg hi, if_neg hi]; exact ⟨rfl, trivial⟩
  | sortPairs cnt => exact ⟨rfl, trivial⟩
  | answer middle i ids ds =>
    refine ⟨rfl, ?_⟩
    simp only [Call.step]
    split
    · split <;> trivial
    · trivial
  | done ids ds => exact ⟨rfl, trivial⟩
  | failed e => exact ⟨rfl, trivial⟩

/-- The four steps of `Save` alone are `Idx.save`. -/
theorem save_alone (bk : Backend) (path : String) (s : Idx c) (w : World) (ctxs : Nat → Ctx c) (ss : List (Search c)) :
    match s.save bk w path with
    | .ok (e, t, w') => (State.mk s w .start ctxs ss).run bk path [none, none, none, none] = ⟨t, w', .returned e, ctxs, ss⟩
    | .error e => ((State.mk s w .start ctxs ss).run bk path [none, none, none, none]).saver = .failed e := by
  have stop : ∀ (w' : World) (e : GoErr) (t : Idx c), (State.mk t w' (.returned e) ctxs ss).save bk path = ⟨t, w', .returned e, ctxs, ss⟩ :=
    fun _ _ _ => rfl
  have stop' : ∀ (w' : World) (e : Err) (t : Idx c), (State.mk t w' (.failed e) ctxs ss).save bk path = ⟨t, w', .failed e, ctxs, ss⟩ :=
    fun _ _ _ => rfl
  show match s.save bk w path with
    | .ok (e, t, w') => ((((State.mk s w .start ctxs ss).save bk path).save bk path).save bk path).save bk path = ⟨t, w', .returned e, ctxs, ss⟩
    | .error e => (((((State.mk s w .start ctxs ss).save bk path).save bk path).save bk path).save bk path).saver = .failed e
  unfold Idx.save
  by_cases hb : s.built = false
  · rw [if_pos hb]
    have e1 : (State.mk s w .start ctxs ss).save bk path = ⟨s, w, .returned (.err "can't save an index that hasn't been built"), ctxs, ss⟩ := by
      unfold State.save
      dsimp only
      rw [if_pos hb]
    rw [e1, stop, stop, stop]
  · rw [if_neg hb]
    cases hc : w.create path with
    | none =>
      have e1 : (State.mk s w .start ctxs ss).save bk path = ⟨s, w, .returned (.err "create"), ctxs, ss⟩ := by
        unfold State.save
        dsimp only
        rw [if_neg hb, hc]
      rw [e1, stop, stop, stop]
    | some r =>
      obtain ⟨inode, w1⟩ := r
      have e1 : (State.mk s w .start ctxs ss).save bk path = ⟨s, w1, .opened inode, ctxs, ss⟩ := by
        unfold State.save
        dsimp only
        rw [if_neg hb, hc]
      rw [e1]
      cases hs : s.saveBytes w1 with
      | error e =>
        have e2 : (State.mk s w1 (.opened inode) ctxs ss).save bk path = ⟨s, w1, .failed e, ctxs, ss⟩ := by
          unfold State.save
          dsimp only
          rw [hs]
        rw [e2, stop', stop']
        simp only [hs, bind, Except.bind]
      | ok b =>
        cases b with
        | none =>
          have e2 : (State.mk s w1 (.opened inode) ctxs ss).save bk path = ⟨s, w1, .returned (.err "write"), ctxs, ss⟩ := by
            unfold State.save
            dsimp only
            rw [hs]
          rw [e2, stop, stop]
          simp only [hs, bind, Except.bind]
        | some b =>
          have e2 : (State.mk s w1 (.opened inode) ctxs ss).save bk path = ⟨s, w1.write inode b, .written, ctxs, ss⟩ := by
            unfold State.save
            dsimp only
            rw [hs]
          have e3 : (State.mk s (w1.write inode b) .written ctxs ss).save bk path = ⟨s.close, w1.write inode b, .closed s, ctxs, ss⟩ := rfl
          rw [e2, e3]
          cases hl : s.load bk (w1.write inode b) path with
          | error e => simp only [State.save, hs, hl, bind, Except.bind]
          | ok r =>
            obtain ⟨e, t⟩ := r
            simp only [State.save, hs, hl, bind, Except.bind]

end ConcSave
end Annoy
