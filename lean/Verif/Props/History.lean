import Verif.Spec.Store
import Verif.Props.Hint
import Verif.Props.SaveLoadWitness
import Verif.Props.Conc
import Verif.Props.Kiss
import Verif.Props.SearchWitness
/-!
# Every history of calls is one of a table of vectors (C96)
-/
namespace Annoy

/-- No two names for one file, and new files get new numbers. -/
structure World.Tidy (w : World) : Prop where
  inj : ∀ p q i, w.dir p = some i → w.dir q = some i → p = q
  lt : ∀ p i, w.dir p = some i → i < w.next

theorem World.create_tidy {w w1 : World} {path : String} {i : Nat} (h : w.create path = some (i, w1)) (ht : w.Tidy) :
    w1.Tidy ∧ w1.creatable = w.creatable ∧ w1.dir path = some i ∧ (∀ p, p ≠ path → w1.dir p = w.dir p) ∧
      (∀ p j, p ≠ path → w.dir p = some j → j ≠ i ∧ w1.content j = w.content j) := by
  unfold World.create at h
  split at h
  · split at h
    · next j hj =>
      cases h
      refine ⟨⟨ht.inj, ht.lt⟩, rfl, hj, fun p _ => rfl, fun p k hp hk => ?_⟩
      have hne : k ≠ i := fun e => hp (ht.inj p path i (e ▸ hk) hj)
      exact ⟨hne, if_neg hne⟩
    · next hj =>
      cases h
      refine ⟨⟨fun p q i hp hq => ?_, fun p i hp => ?_⟩, rfl, if_pos rfl, fun p hp => if_neg hp, fun p k hp hk => ?_⟩
      · dsimp only at hp hq
        split at hp <;> split at hq
        · next e1 e2 => rw [e1, e2]
        · cases hp; have := ht.lt _ _ hq; omega
        · cases hq; have := ht.lt _ _ hp; omega
        · exact ht.inj p q i hp hq
      · dsimp only at hp ⊢
        split at hp
        · cases hp; omega
        · have := ht.lt _ _ hp; omega
      · have := ht.lt _ _ hk
        have hne : k ≠ w.next := by omega
        exact ⟨hne, if_neg hne⟩
  · cases h

theorem World.Tidy.write {w : World} (h : w.Tidy) (i : Nat) (bytes : List Byte) : (w.write i bytes).Tidy := ⟨h.inj, h.lt⟩

/-- What `Save` does to the other files. -/
theorem World.create_read {w w1 : World} {path : String} {i : Nat} (h : w.create path = some (i, w1)) (ht : w.Tidy)
    {p : String} (hp : p ≠ path) (bytes : List Byte) : w1.read p = w.read p ∧ (w1.write i bytes).read p = w.read p := by
  obtain ⟨_, _, _, h4, h5⟩ := create_tidy h ht
  unfold World.read World.write
  dsimp only
  rw [h4 p hp]
  cases hd : w.dir p with
  | none => exact ⟨rfl, rfl⟩
  | some j =>
    obtain ⟨h6, h7⟩ := h5 p j hp hd
    simp only [Option.map_some, h7, if_neg h6, and_self]

theorem World.create_creatable {w : World} {path : String} :
    w.creatable path = false ↔ w.create path = none := by
  unfold World.create
  cases w.creatable path with
  | false => simp
  | true => cases w.dir path <;> simp

section
variable {c : Cfg}

theorem Idx.save_cases {bk : Backend} {w w' : World} {s s' : Idx c} {path : String} {e : GoErr} (h : s.save bk w path = .ok (e, s', w')) :
    (s.built = false ∧ e ≠ .nil ∧ s' = s ∧ w' = w) ∨
    (s.built = true ∧ w.creatable path = false ∧ e ≠ .nil ∧ s' = s ∧ w' = w) ∨
    (s.built = true ∧ w.creatable path = true ∧ ∃ i w1, w.create path = some (i, w1) ∧
      ((s.saveBytes w1 = .ok none ∧ e ≠ .nil ∧ s' = s ∧ w' = w1) ∨
        ∃ bytes, s.saveBytes w1 = .ok (some bytes) ∧ w' = w1.write i bytes ∧ s.load bk w' path = .ok (e, s'))) := by
  unfold Idx.save at h
  split at h
  · next h0 => cases h; exact Or.inl ⟨h0, by simp, rfl, rfl⟩
  · next h0 =>
    have h0 : s.built = true := by simpa using h0
    split at h
    · next h1 => cases h; exact Or.inr (Or.inl ⟨h0, World.create_creatable.2 h1, by simp, rfl, rfl⟩)
    · next i w1 h1 =>
      have hcr : w.creatable path = true := by
        by_contra hc
        rw [World.create_creatable.1 (by simpa using hc)] at h1
        cases h1
      refine Or.inr (Or.inr ⟨h0, hcr, i, w1, h1, ?_⟩)
      simp only [bind, Except.bind] at h
      split at h
      · cases h
      · next x hx =>
        split at h
        · cases h; exact Or.inl ⟨hx, by simp, rfl, rfl⟩
        · next bytes =>
          split at h
          · cases h
          · next v hv => cases h; exact Or.inr ⟨bytes, hx, rfl, hv⟩

/-- What `Load` leaves: an open file, or a closed index. -/
theorem Idx.load_cases {bk : Backend} {w : World} {s s' : Idx c} {path : String} {e : GoErr} (h : s.load bk w path = .ok (e, s')) :
    (e = .nil ∧ s'.built = true ∧ s'.loaded = true ∧ ∃ hd, openIndex bk w path = .ok (some hd) ∧ s'.nodes = .file hd) ∨
    (e ≠ .nil ∧ (s' = s.close ∨ s' = s.close.close)) := by
  unfold Idx.load at h
  simp only [bind, Except.bind] at h
  split at h
  · cases h
  · next v hv =>
    split at h
    · cases h; exact Or.inr ⟨by simp, Or.inl rfl⟩
    · next hd =>
      split at h
      · cases h; exact Or.inr ⟨by simp, Or.inr rfl⟩
      · split at h
        · cases h
        · split at h
          · cases h
          · split at h
            · cases h
            · cases h; exact Or.inl ⟨rfl, rfl, rfl, hd, hv, rfl⟩

theorem slotCount_append {V : Type} (a b : List (Nat × List V)) : slotCount (a ++ b) = max (slotCount a) (slotCount b) := by
  unfold slotCount
  induction a with
  | nil => simp
  | cons p a ih => simp only [List.cons_append, List.foldr_cons, ih]; omega

theorem Idx.addAll_append (a b : List (Nat × List c.N.V)) : ∀ {s s1 : Idx c}, s.addAll a = .ok s1 →
    s.addAll (a ++ b) = s1.addAll b := by
  induction a with
  | nil => intro s s1 h; cases h; rfl
  | cons p a ih =>
    intro s s1 h
    simp only [List.cons_append]
    rw [Idx.addAll] at h ⊢
    simp only [bind, Except.bind] at h ⊢
    split at h
    · cases h
    · next s2 h2 => exact ih h

theorem ServesAll.snoc {bk : Backend} {numCPU : Nat} {h : List (Req c × Resp c)} {x y z : Env c} {q : Req c} {a : Resp c}
    (hs : ServesAll bk numCPU h x y) (hz : Serves bk numCPU q y a z) : ServesAll bk numCPU (h ++ [(q, a)]) x z := by
  induction hs with
  | nil x => exact .cons hz (.nil _)
  | cons h1 _ ih => exact .cons h1 (ih hz)

/-! ### the relation between an index and a table -/

section
variable (c)

/-- The index holds the items `adds` and nothing else. -/
structure Adding (s : Idx c) (adds : List (Nat × List c.N.V)) : Prop where
  legal : LegalAdds c adds
  inv : s.ItemInv (lastAdded adds) (slotCount adds)
  roots : s.roots = []
  nNodes : s.nNodes = 0
  first : s.built = false → ∃ r hint, (Idx.new c r hint).addAll adds = .ok s

/-- `Build` made `s'` of the items of the table. -/
structure Makes (numCPU : Nat) (t : Table c.N.V) (s' : Idx c) : Prop where
  session : ∃ s, Session c numCPU t.pol t.adds t.trees t.workers s s'

/-- The file at `path` was written by `Save`. -/
structure FileHolds (numCPU : Nat) (t : Table c.N.V) (w : World) (path : String) : Prop where
  readable : t.Readable c.L
  made : ∃ s', Makes c numCPU t s' ∧ FileOf s' w path

/-- The index `s` in the world `w` is the phase. -/
def PhaseOf (bk : Backend) (numCPU : Nat) (w : World) (s : Idx c) : Phase c.N.V → Prop
  | .adding adds => Adding c s adds
  | .built t => Makes c numCPU t s
  | .loaded t path => FileHolds c numCPU t w path ∧ ∃ u : Idx c, u.load bk w path = .ok (.nil, s)
  | .unknown => True

/-- The index and its files are the table. -/
structure StoreOf (bk : Backend) (numCPU : Nat) (creatable : String → Bool) (x : Env c) (st : Store c.N.V) : Prop where
  built : x.idx.built = st.everBuilt
  batch : x.idx.built = false → x.idx.batchMaxNNS = 0
  tidy : x.world.Tidy
  creatable : x.world.creatable = creatable
  files : ∀ p t, st.files p = some t → FileHolds c numCPU t x.world p
  phase : PhaseOf c bk numCPU x.world x.idx st.phase

end

variable {bk : Backend} {numCPU : Nat} {creatable : String → Bool}

theorem Adding.new (hc : c.WF) (r : c.R.σ) (hint : Nat) : Adding c (Idx.new c r hint) [] :=
  ⟨(fun p hp => by cases hp), Idx.ItemInv.new c hc.layout r hint, rfl, rfl, fun _ => ⟨r, hint, rfl⟩⟩

theorem Adding.close (hc : c.WF) {s : Idx c} (hb : s.built = false → s.batchMaxNNS = 0) : Adding c s.close [] := by
  refine ⟨(fun p hp => by cases hp), closed_itemInv hc.layout s, rfl, rfl, fun h => ⟨c.R.cloneAndReset s.rng, 0, ?_⟩⟩
  have h' : s.built = false := h
  have e : s.close = Idx.new c (c.R.cloneAndReset s.rng) 0 := by
    unfold Idx.close Idx.new
    rw [hb h', h']
    rfl
  rw [e]
  rfl

theorem Adding.add (hc : c.WF) {s s' : Idx c} {adds : List (Nat × List c.N.V)} (h : Adding c s adds) {i : Nat} {v : List c.N.V}
    (hv : v.length = c.L.f) (hi : c.L.Fits (i + 1)) (ha : s.addItem i v = .ok s') : Adding c s' (adds ++ [(i, v)]) := by
  have hl : LegalAdds c [(i, v)] := by
    intro p hp
    rw [List.mem_singleton.1 hp]
    exact ⟨hv, hi⟩
  have e : s.addAll [(i, v)] = .ok s' := by
    unfold Idx.addAll
    simp only [ha, bind, Except.bind]
    rfl
  obtain ⟨s1, h1, h2, h3, h4, h5, -⟩ := addAll_spec hc [(i, v)] s _ _ h.inv hl
  rw [e] at h1
  cases h1
  refine ⟨?_, ?_, h3.trans h.roots, h5.trans h.nNodes, fun hb => ?_⟩
  · intro p hp
    rcases List.mem_append.1 hp with hp | hp
    · exact h.legal p hp
    · exact hl p hp
  · rw [slotCount_append]
    have : lastAdded (adds ++ [(i, v)]) = fun j => (lastAdded [(i, v)] j).or (lastAdded adds j) := funext (lastAdded_append _ _)
    rw [this]
    exact h2
  · obtain ⟨r, hint, h0⟩ := h.first (h4.symm.trans hb)
    exact ⟨r, hint, (Idx.addAll_append _ _ h0).trans e⟩

theorem Makes.hasTrees {t : Table c.N.V} {s' : Idx c} (h : Makes c numCPU t s') (ht : t.HasTrees) : s'.roots ≠ [] := by
  obtain ⟨s, h⟩ := h
  obtain ⟨N0, B, h1, h2, h3⟩ := h.built
  obtain ⟨h4 | ⟨h4, h5⟩, h6⟩ := ht
  · intro h0
    have := h2 (by omega) h6
    rw [h0] at this
    simp at this
    omega
  · intro h0
    have := h3 h4 h6
    have := B.noRoots h0
    have := slotCount_pos h5
    omega

theorem Makes.noTrees {t : Table c.N.V} {s' : Idx c} (h : Makes c numCPU t s') (ht : t.NoTrees) : s'.roots = [] := by
  obtain ⟨s, h⟩ := h
  by_cases hw : t.pol = .multi ∧ t.workers = 0
  · obtain ⟨adds, trees, workers, pol⟩ := t
    obtain ⟨h1, h2⟩ := hw
    dsimp only at h1 h2 h
    subst h1 h2
    exact C54_zero_workers h
  · rcases ht with ht | ht
    · obtain ⟨N0, B, h1, h2, h3⟩ := h.built
      have := h2 (by omega) (fun h1 h2 => hw ⟨h1, h2⟩)
      rw [ht] at this
      exact List.length_eq_zero_iff.1 this
    · exact absurd ht hw

theorem FileHolds.congr {t : Table c.N.V} {w w' : World} {p : String} (h : FileHolds c numCPU t w p) (e : w'.read p = w.read p) :
    FileHolds c numCPU t w' p := by
  obtain ⟨h1, s', ⟨s, h2⟩, h3⟩ := h
  refine ⟨h1, s', ⟨s, h2⟩, ?_⟩
  rw [h2.fileOf] at h3 ⊢
  rw [e, h3]

/-- A loaded index writes the bytes it was loaded from. -/
theorem FileHolds.saveBytes {t : Table c.N.V} {w w1 : World} {path src : String} {i : Nat} (h : FileHolds c numCPU t w src)
    {u s : Idx c} (hl : u.load bk w src = .ok (.nil, s)) (ht : w.Tidy) (hcr : w.create path = some (i, w1))
    (hne : ¬ (bk = .mmap ∧ src = path)) : ∃ s', Makes c numCPU t s' ∧
      s.saveBytes w1 = .ok (some (s'.alloc.block.prefix (s'.nNodes * c.L.nodeSize))) := by
  obtain ⟨⟨hn, htr, hk⟩, s', ⟨s0, h2⟩, h3⟩ := h
  refine ⟨s', ⟨s0, h2⟩, ?_⟩
  obtain ⟨t', l1, N0, B, _, R⟩ := h2.reload hn (Makes.hasTrees ⟨s0, h2⟩ htr) hk h3 bk u
  rw [hl] at l1
  cases l1
  rcases Idx.load_cases hl with ⟨-, -, -, hd, ho, hnodes⟩ | ⟨hx, -⟩
  swap
  · exact absurd rfl hx
  have hsz := B.size_lt
  have hm : hd.block w = ⟨s'.nNodes * c.L.nodeSize, s'.alloc.data⟩ := by
    rw [← R.mem]
    unfold Idx.mem
    rw [hnodes]
  have hm1 : hd.block w1 = hd.block w := by
    cases hd with
    | gc b => rfl
    | mmap j z =>
      have hbk : bk = .mmap := by
        cases bk with
        | mmap => rfl
        | gc =>
          unfold openIndex at ho
          split at ho
          · cases ho
          · dsimp only at ho
            split at ho <;> cases ho
      subst hbk
      have hsp : src ≠ path := fun e => hne ⟨rfl, e⟩
      have hj : w.dir src = some j := by
        unfold openIndex at ho
        split at ho
        · cases ho
        · next k hk =>
          dsimp only at ho
          split at ho
          · cases ho
          · cases ho; exact hk
      obtain ⟨-, -, -, -, h5⟩ := World.create_tidy hcr ht
      unfold Handle.block
      dsimp only
      rw [(h5 src j hsp hj).2]
  have hb : hd.block w1 = ⟨s'.nNodes * c.L.nodeSize, s'.alloc.data⟩ := hm1.trans hm
  unfold Idx.saveBytes
  rw [R.nNodes, c.L.wrap_eq hsz, hnodes]
  cases hd with
  | gc b =>
    have hb : b = ⟨s'.nNodes * c.L.nodeSize, s'.alloc.data⟩ := hb
    dsimp only
    rw [hb, if_pos (le_refl _)]
    rfl
  | mmap j z =>
    dsimp only
    rw [hb, if_pos (le_refl _)]
    rfl

/-! ### reading -/

theorem FileHolds.loaded {t : Table c.N.V} {w : World} {path : String} (h : FileHolds c numCPU t w path) {u s : Idx c}
    (hl : u.load bk w path = .ok (.nil, s)) : ∃ s0 s' N0, Session c numCPU t.pol t.adds t.trees t.workers s0 s' ∧ s'.roots ≠ [] ∧
      FileOf s' w path ∧ s'.Built (lastAdded t.adds) (slotCount t.adds) N0 ∧ s'.nNodes ≤ t.room numCPU ∧
      s'.Reloaded (slotCount t.adds) N0 w s := by
  obtain ⟨⟨hn, htr, hk⟩, s', ⟨s0, h2⟩, h3⟩ := h
  have hne := Makes.hasTrees ⟨s0, h2⟩ htr
  obtain ⟨N1, B1, b1, -⟩ := h2.built
  obtain ⟨t', l1, N0, B, _, R⟩ := h2.reload hn hne hk h3 bk u
  rw [hl] at l1
  cases l1
  exact ⟨s0, s', N0, h2, hne, h3, B, b1, R⟩

theorem StoreOf.itemAt {x : Env c} {st : Store c.N.V} (h : StoreOf c bk numCPU creatable x st) {i : Nat} {v : List c.N.V}
    (hi : st.item i = some v) : getNode c.L (x.idx.mem x.world) i = .ok (i * c.L.nodeSize) ∧
      ItemAt c (x.idx.mem x.world).get (i * c.L.nodeSize) v := by
  have hp := h.phase
  unfold Store.item at hi
  cases hst : st.phase with
  | adding adds =>
    rw [hst] at hi hp
    have I := Adding.inv hp
    have hlt := I.bound i v hi
    have hle := I.n_le
    have hn := I.memOK.nodes (by omega)
    have e : x.idx.mem x.world = x.idx.alloc.block ∧ x.idx.bmem = x.idx.alloc.block := by
      simp [Idx.mem, Idx.bmem, hn]
    rw [e.1]
    refine ⟨?_, I.items i v hi⟩
    rw [← e.2]
    exact (I.memOK.getNode (by omega)).1
  | built t =>
    rw [hst] at hi hp
    obtain ⟨s, hs⟩ := hp
    obtain ⟨N0, B, -⟩ := hs.built
    have hlt := B.bound i v hi
    have hle := B.n_le_nNodes
    refine ⟨B.getNode _ (by omega), ?_⟩
    rw [(B.mem_eq x.world (by omega)).1]
    exact B.items i v hi
  | loaded t path =>
    rw [hst] at hi hp
    obtain ⟨hf, u, hl⟩ := hp
    obtain ⟨s0, s', N0, hs, -, -, B, -, R⟩ := hf.loaded hl
    have hlt := B.bound i v hi
    have hle := B.n_le_nNodes
    refine ⟨R.getNode B (by omega), ?_⟩
    rw [R.mem]
    exact B.items i v hi
  | unknown => rw [hst] at hi; cases hi

theorem StoreOf.getItem {x : Env c} {st : Store c.N.V} (h : StoreOf c bk numCPU creatable x st) {i : Nat} {v : List c.N.V}
    (hi : st.item i = some v) : x.idx.getItem x.world i = .ok v := by
  obtain ⟨h1, h2⟩ := h.itemAt hi
  unfold Idx.getItem
  rw [h1]
  exact congrArg _ h2.vec

theorem StoreOf.getDistance (hc : c.WF) {x : Env c} {st : Store c.N.V} (h : StoreOf c bk numCPU creatable x st) {i j : Nat}
    {v u : List c.N.V} (hi : st.item i = some v) (hj : st.item j = some u) :
    x.idx.getDistance x.world i j = .ok (c.D.normalizedDistance (vecDist c v u)) := by
  obtain ⟨h1, h2⟩ := h.itemAt hi
  obtain ⟨h3, h4⟩ := h.itemAt hj
  unfold Idx.getDistance
  simp only [h1, h3, bind, Except.bind]
  congr 2
  exact hc.distance _ _ _ _ _ _ _ _ (h2.same_canon hc) (h4.same_canon hc)

/-! ### searching -/

theorem found_none (hc : c.WF) {t : Idx c} {fuel : Nat} {w : World} {query : List c.N.V} (hq : query.length = c.L.f) {k b : Int}
    {ctx o : Ctx c} {ids : List Nat} {ds : List c.N.V} (h : t.roots = []) (hr : t.getNnsByVector fuel w query k b ctx = .ok (ids, ds, o)) :
    ids = [] ∧ ds = [] := by
  cases fuel with
  | zero =>
    unfold Idx.getNnsByVector Search.run Search.loop at hr
    cases hr
  | succ fuel =>
    obtain ⟨o', h1⟩ := C26_empty hc t fuel w hq.le (k := k) (b := b) (Or.inl h) ctx
    rw [h1] at hr
    cases hr
    exact ⟨rfl, rfl⟩

theorem StoreOf.search (hc : c.WF) (hN : c.N.Lawful) {x : Env c} {st : Store c.N.V} (h : StoreOf c bk numCPU creatable x st)
    {query : List c.N.V} (hq : GoodQuery c query) {k b : Int} {fuel : Nat} {ctx o : Ctx c} {ids : List Nat} {ds : List c.N.V}
    (hr : x.idx.getNnsByVector fuel x.world query k b ctx = .ok (ids, ds, o)) : st.RightSearch c numCPU query k b ids ds := by
  have hp := h.phase
  unfold Store.RightSearch
  cases hst : st.phase with
  | adding adds =>
    rw [hst] at hp
    exact found_none hc hq.length (Adding.roots hp) hr
  | built t =>
    rw [hst] at hp
    obtain ⟨s, hs⟩ := id hp
    obtain ⟨N0, B, b1, -⟩ := hs.built
    have hrl : x.idx.roots.length ≤ t.room numCPU := by
      have := B.nNodes
      unfold Table.room
      omega
    refine ⟨⟨C16_sound hs hN _ hq hr, fun ⟨h1, h2⟩ hb => ?_, fun ⟨h1, h2⟩ hb hk => ?_⟩, fun h0 => found_none hc hq.length (Makes.noTrees hp h0) hr⟩
    · refine (C17_exhaustive_partial hs h2 hN _ hq (Makes.hasTrees hp h1) ?_ hr).1
      have : x.idx.roots.length * ((addedIds t.adds).length - 1) ≤ t.room numCPU * (addedIds t.adds).length :=
        Nat.mul_le_mul hrl (by omega)
      omega
    · subst hb
      obtain ⟨k, rfl⟩ := Int.eq_ofNat_of_zero_le hk
      exact (C18_default_count_partial hs h2 hN _ hq (Makes.hasTrees hp h1) hr).1
  | loaded t path =>
    rw [hst] at hp
    obtain ⟨hf, u, hl⟩ := hp
    obtain ⟨s0, s', N0, hs, hne, hfile, B, b1, R⟩ := hf.loaded hl
    obtain ⟨hn, htr, hk⟩ := hf.readable
    have hrl : x.idx.roots.length ≤ t.room numCPU := by
      refine le_trans ?_ b1
      have := List.subperm_of_subset (R.roots_nodup) (fun r hr => List.mem_range.2 (R.roots_mem hr).2.1 : x.idx.roots ⊆ List.range s'.nNodes)
      simpa using this.length_le
    refine ⟨C16_sound_loaded hs hN hn hne hk hfile hl hq hr, fun ⟨h1, h2⟩ hb => ?_, fun ⟨h1, h2⟩ hb hk' => ?_⟩
    · refine (C17_exhaustive_loaded_partial hs hN hn hne hk h1 h2 hfile hl hq ?_ hr).1
      have : x.idx.roots.length * ((addedIds t.adds).length - 1) ≤ t.room numCPU * (addedIds t.adds).length :=
        Nat.mul_le_mul hrl (by omega)
      omega
    · subst hb
      obtain ⟨k, rfl⟩ := Int.eq_ofNat_of_zero_le hk'
      exact (C18_default_count_loaded_partial hs hN hn hne hk h1 h2 hfile hl hq hr).1
  | unknown => trivial

/-! ### the simulation -/

theorem addItem_batch {s s' : Idx c} {i : Nat} {v : List c.N.V} (h : s.addItem i v = .ok s') :
    s'.batchMaxNNS = s.batchMaxNNS ∧ v.length = c.L.f ∧ s.loaded = false := by
  unfold Idx.addItem at h
  split at h
  · cases h
  · next h0 =>
    split at h
    · cases h
    · next h1 =>
      simp only [bind, Except.bind] at h
      split at h
      · cases h
      · have hb : ∀ n, (s.allocateSize n).batchMaxNNS = s.batchMaxNNS := by
          intro n
          unfold Idx.allocateSize
          split <;> rfl
        refine ⟨?_, by simpa using h1, by simpa using h0⟩
        cases h
        split
        · exact hb _
        · exact hb _

/-- Every answered call is answered as by the table, and leaves the table in step with the index. -/
theorem StoreOf.step (hc : c.WF) (hN : c.N.Lawful) (hg : ∀ q : List c.N.V, q.length = c.L.f → GoodQuery c q) {q : Req c} {a : Resp c}
    {x y : Env c} {st : Store c.N.V} (h : StoreOf c bk numCPU creatable x st) (hs : Serves bk numCPU q x a y) :
    st.Right c bk numCPU creatable q a ∧ StoreOf c bk numCPU creatable y (st.after c bk numCPU creatable q a) := by
  have hv : ∀ {i v}, st.item i = some v → v.length = c.L.f := fun hi => (h.itemAt hi).2.vec ▸ by simp [Node.vec]
  cases hs with
  | @addItem w s i v s' hs =>
    obtain ⟨f1, f2⟩ := addItem_flags hs
    obtain ⟨f3, f4, f5⟩ := addItem_batch hs
    have hp := h.phase
    refine ⟨⟨f4, fun t p e => ?_⟩, ?_⟩
    · rw [e] at hp
      obtain ⟨-, u, hl⟩ := hp
      have := (C15_load_sets_loaded hl).1
      dsimp only at this
      rw [f5] at this
      cases this
    · have hu : StoreOf c bk numCPU creatable ⟨w, s'⟩ { st with phase := .unknown } :=
        ⟨f1.trans h.built, fun hb => f3.trans (h.batch (f1.symm.trans hb)), h.tidy, h.creatable, h.files, trivial⟩
      unfold Store.after
      dsimp only
      cases hst : st.phase with
      | adding adds =>
        dsimp only
        rw [hst] at hp
        split
        · next hi => exact ⟨hu.built, hu.batch, hu.tidy, hu.creatable, hu.files, Adding.add hc hp f4 hi hs⟩
        · exact hu
      | _ => exact hu
  | @build w s trees workers pol s' hs =>
    obtain ⟨f1, f2, f3⟩ := Idx.builds_built hs
    have hp := h.phase
    refine ⟨h.built.symm.trans f2, ?_⟩
    have hu : StoreOf c bk numCPU creatable ⟨w, s'⟩ { st with phase := .unknown, everBuilt := true } :=
      ⟨f1, (fun hb => by dsimp only at hb; rw [f1] at hb; cases hb), h.tidy, h.creatable, h.files, trivial⟩
    unfold Store.after
    dsimp only
    cases hst : st.phase with
    | adding adds =>
      dsimp only
      rw [hst] at hp
      split
      · next hi =>
        exact ⟨hu.built, hu.batch, hu.tidy, hu.creatable, hu.files, ⟨s, hc, Adding.legal hp, Adding.first hp f2, hi, hs⟩⟩
      · exact hu
    | _ => exact hu
  | @save w s path e s' w' hs =>
    have hp := h.phase
    have hb := h.built
    have hcr := h.creatable
    dsimp only at hb hcr
    rcases Idx.save_cases hs with ⟨f1, f2, rfl, rfl⟩ | ⟨f1, f2, f3, rfl, rfl⟩ | ⟨f1, f2, i, w1, f3, f4⟩
    · rw [f1] at hb
      refine ⟨⟨fun _ => f2, fun _ => f2, (fun t h1 => by rw [← hb] at h1; cases h1)⟩, ?_⟩
      unfold Store.after
      dsimp only
      rw [if_pos (Or.inl hb.symm)]
      exact h
    · rw [hcr] at f2
      refine ⟨⟨fun _ => f3, fun _ => f3, (fun t _ h1 => by rw [f2] at h1; cases h1)⟩, ?_⟩
      unfold Store.after
      dsimp only
      rw [if_pos (Or.inr f2)]
      exact h
    · rw [hcr] at f2
      rw [f1] at hb
      obtain ⟨g1, g2, g3, g4, g5⟩ := World.create_tidy f3 h.tidy
      -- the other files, and the flags
      have hw' : w'.Tidy ∧ w'.creatable = creatable ∧ ∀ p, p ≠ path → w'.read p = w.read p := by
        rcases f4 with ⟨-, -, -, rfl⟩ | ⟨bytes, -, rfl, -⟩
        · exact ⟨g1, g2.trans hcr, fun p hp => (World.create_read f3 h.tidy hp []).1⟩
        · exact ⟨g1.write _ _, g2.trans hcr, fun p hp => (World.create_read f3 h.tidy hp bytes).2⟩
      have hs' : s'.built = true := by
        rcases f4 with ⟨-, -, rfl, -⟩ | ⟨bytes, -, -, hl⟩
        · exact f1
        · rcases Idx.load_cases hl with ⟨-, k, -⟩ | ⟨-, rfl | rfl⟩
          · exact k
          · exact f1
          · exact f1
      have hu : StoreOf c bk numCPU creatable ⟨w', s'⟩
          { st with phase := .unknown, files := fun p => if p = path then none else st.files p } := by
        refine ⟨hs'.trans hb, (fun k => by dsimp only at k; rw [hs'] at k; cases k), hw'.1, hw'.2.1, fun p t ht => ?_, trivial⟩
        dsimp only at ht
        split at ht
        · cases ht
        · next hne => exact (h.files p t ht).congr (hw'.2.2 p hne)
      -- a readable table arrives in the file and is loaded from there
      have key : ∀ t, st.saves c bk path = some t → t.Readable c.L →
          e = .nil ∧ FileHolds c numCPU t w' path ∧ s.load bk w' path = .ok (.nil, s') := by
        intro t ht hr
        have hbytes : ∃ s1, Makes c numCPU t s1 ∧ s.saveBytes w1 = .ok (some (s1.alloc.block.prefix (s1.nNodes * c.L.nodeSize))) := by
          unfold Store.saves at ht
          cases hst : st.phase with
          | built t' =>
            rw [hst] at ht hp
            cases ht
            obtain ⟨s0, hs0⟩ := id hp
            obtain ⟨N0, B, -⟩ := hs0.built
            exact ⟨s, hp, B.saveBytes hc w1⟩
          | loaded t' src =>
            rw [hst] at ht hp
            dsimp only at ht
            split at ht
            · cases ht
            · next hne =>
              cases ht
              obtain ⟨p1, u, p2⟩ := hp
              exact p1.saveBytes p2 h.tidy f3 hne
          | adding _ => rw [hst] at ht; cases ht
          | unknown => rw [hst] at ht; cases ht
        obtain ⟨s1, ⟨s0, m1⟩, m2⟩ := hbytes
        rcases f4 with ⟨k1, -⟩ | ⟨bytes, k1, k2, k3⟩
        · rw [m2] at k1; cases k1
        · rw [m2] at k1
          cases k1
          have hfile : FileOf s1 w' path := by
            rw [m1.fileOf, k2]
            unfold World.read World.write
            dsimp only
            rw [g3]
            have : w1.content i = [] := by
              unfold World.create at f3
              split at f3
              · split at f3 <;> cases f3 <;> simp
              · cases f3
            simp [this]
          obtain ⟨t', l1, -⟩ := m1.reload hr.1 (Makes.hasTrees ⟨s0, m1⟩ hr.2.1) hr.2.2 hfile bk s
          rw [k3] at l1
          cases l1
          exact ⟨rfl, ⟨hr, s1, ⟨s0, m1⟩, hfile⟩, k3⟩
      refine ⟨⟨(fun k => by rw [← hb] at k; cases k), (fun k => by rw [f2] at k; cases k), fun t _ _ h3 h4 => (key t h3 h4).1⟩, ?_⟩
      unfold Store.after
      dsimp only
      rw [if_neg (by rw [← hb, f2]; simp)]
      split
      · next t ht =>
        split
        · next hr =>
          obtain ⟨-, k1, k2⟩ := key t ht hr
          refine ⟨hu.built, hu.batch, hu.tidy, hu.creatable, fun p t' ht' => ?_, k1, s, k2⟩
          dsimp only at ht'
          split at ht'
          · next e => cases ht'; rw [e]; exact k1
          · next hne => exact (h.files p t' ht').congr (hw'.2.2 p hne)
        · exact hu
      · exact hu
  | @load w s path e s' hs =>
    have hr : ∀ t, st.files path = some t → e = .nil := by
      intro t ht
      obtain ⟨⟨hn, htr, hk⟩, s1, ⟨s0, h2⟩, h3⟩ := h.files path t ht
      obtain ⟨t', l1, -⟩ := h2.reload hn (Makes.hasTrees ⟨s0, h2⟩ htr) hk h3 bk s
      dsimp only at l1
      rw [hs] at l1
      cases l1
      rfl
    refine ⟨hr, ?_⟩
    rcases Idx.load_cases hs with ⟨rfl, f1, f2, -⟩ | ⟨f0, f1⟩
    · unfold Store.after
      dsimp only
      refine ⟨f1, (fun hb => by dsimp only at hb; rw [f1] at hb; cases hb), h.tidy, h.creatable, h.files, ?_⟩
      dsimp only
      cases hf : st.files path with
      | none => trivial
      | some t => exact ⟨h.files path t hf, s, hs⟩
    · have e1 : st.after c bk numCPU creatable (.load path) (.error e) = { st with phase := .adding [] } := by
        unfold Store.after
        cases e with
        | nil => exact absurd rfl f0
        | err m => rfl
      rw [e1]
      rcases f1 with rfl | rfl
      · exact ⟨h.built, h.batch, h.tidy, h.creatable, h.files, Adding.close hc h.batch⟩
      · exact ⟨h.built, h.batch, h.tidy, h.creatable, h.files, Adding.close (s := s.close) hc h.batch⟩
  | close => exact ⟨trivial, h.built, h.batch, h.tidy, h.creatable, h.files, Adding.close hc h.batch⟩
  | @getItem w s i v hs =>
    refine ⟨fun u hi => ?_, h⟩
    have := h.getItem hi
    rw [hs] at this
    cases this
    rfl
  | @getDistance w s i j d hs =>
    refine ⟨fun u v hi hj => ?_, h⟩
    have := h.getDistance hc hi hj
    rw [hs] at this
    cases this
    rfl
  | @createContext w s =>
    refine ⟨?_, h⟩
    show (s.createContext).dist.length = (s.createContext).nns.length
    simp [Idx.createContext]
  | byVector fuel hs => exact ⟨fun hq => h.search hc hN (hg _ hq) hs, h⟩
  | @byItem w s i n b ctx ids ds ctx' fuel hs =>
    refine ⟨fun u hi => ?_, h⟩
    obtain ⟨h1, h2⟩ := h.itemAt hi
    unfold Idx.getNnsByItem at hs
    dsimp only at h1 h2
    rw [h1] at hs
    have hs : s.getNnsByVector fuel w (Node.vec c.L c.C (s.mem w).get (i * c.L.nodeSize)) n b ctx = .ok (ids, ds, ctx') := hs
    rw [h2.vec] at hs
    exact h.search hc hN (hg _ (hv hi)) hs

theorem StoreOf.new (hc : c.WF) {w : World} (hw : w.Tidy) (r : c.R.σ) (hint : Nat) :
    StoreOf c bk numCPU w.creatable ⟨w, Idx.new c r hint⟩ (.fresh c.N.V) :=
  ⟨rfl, fun _ => rfl, hw, rfl, (fun p t h => by cases h), Adding.new hc r hint⟩

theorem StoreOf.all (hc : c.WF) (hN : c.N.Lawful) (hg : ∀ q : List c.N.V, q.length = c.L.f → GoodQuery c q)
    {h : List (Req c × Resp c)} {x y : Env c} (hs : ServesAll bk numCPU h x y) : ∀ {st : Store c.N.V},
    StoreOf c bk numCPU creatable x st →
    st.Explains c bk numCPU creatable h ∧ StoreOf c bk numCPU creatable y (st.afterAll c bk numCPU creatable h) := by
  induction hs with
  | nil x => intro st hx; exact ⟨trivial, hx⟩
  | cons h1 _ ih =>
    intro st hx
    obtain ⟨k1, k2⟩ := hx.step hc hN hg h1
    obtain ⟨k3, k4⟩ := ih k2
    exact ⟨⟨k1, k3⟩, k4⟩

/-- **C96.**  Whatever calls a program makes on a new index, in whatever order, and whatever files there are: every answer is the answer of a
table of vectors (`Spec/Store.lean`).  For every distance, generator and arithmetic that meets the contracts, both policies, every schedule of
the workers, both kinds of index memory. -/
theorem C96_history (hc : c.WF) (hN : c.N.Lawful) (hg : ∀ q : List c.N.V, q.length = c.L.f → GoodQuery c q) (bk : Backend) (numCPU : Nat)
    {w : World} (hw : w.Tidy) (r : c.R.σ) (hint : Nat) {h : List (Req c × Resp c)} {y : Env c}
    (hs : ServesAll bk numCPU h ⟨w, Idx.new c r hint⟩ y) :
    (Store.fresh c.N.V).Explains c bk numCPU w.creatable h :=
  (StoreOf.all hc hN hg hs (StoreOf.new hc hw r hint)).1

/-! ### C97: what is offered is answered -/

theorem EventuallyBalanced.canBalance (h : EventuallyBalanced c) (r : c.R.σ) : Conc.CanBalance c := by
  intro ids h2 hlt
  obtain ⟨k, hk⟩ := h ids r h2 hlt
  revert r
  induction k with
  | zero =>
    intro r hk
    obtain ⟨⟨l, rt, r'⟩, hx⟩ := Idx.assignSides_ok (c := c) (side := fun _ r => .ok (c.R.nextSide r)) (ids := ids) (fun j _ r => ⟨_, rfl⟩) r
    refine ⟨r, l, rt, r', hx, ?_⟩
    unfold drawSides at hk
    rw [hx] at hk
    exact hk
  | succ k ih =>
    intro r hk
    obtain ⟨x, hx⟩ := Idx.assignSides_ok (c := c) (side := fun _ r => .ok (c.R.nextSide r)) (ids := ids) (fun j _ r => ⟨_, rfl⟩) r
    unfold drawSides at hk
    rw [hx] at hk
    exact ih x.2.2 hk


/-- `Save` of a table that can be read again. -/
theorem StoreOf.saved (hc : c.WF) {w : World} {s : Idx c} {st : Store c.N.V} (h : StoreOf c bk numCPU creatable ⟨w, s⟩ st) {path : String} {t : Table c.N.V}
    (hb : st.everBuilt = true) (hcr : creatable path = true) (ht : st.saves c bk path = some t) (hr : t.Readable c.L) :
    ∃ s' w', s.save bk w path = .ok (.nil, s', w') := by
  have hp := h.phase
  have hb' : s.built = true := h.built.trans hb
  obtain ⟨i, w1, f3, -⟩ := World.create_write (w := w) (path := path) ((congrFun h.creatable path).trans hcr)
  obtain ⟨g1, g2, g3, g4, g5⟩ := World.create_tidy f3 h.tidy
  have hbytes : ∃ s1, Makes c numCPU t s1 ∧ s.saveBytes w1 = .ok (some (s1.alloc.block.prefix (s1.nNodes * c.L.nodeSize))) := by
    unfold Store.saves at ht
    cases hst : st.phase with
    | built t' =>
      rw [hst] at ht hp
      cases ht
      obtain ⟨s0, hs0⟩ := id hp
      obtain ⟨N0, B, -⟩ := hs0.built
      exact ⟨s, hp, B.saveBytes hc w1⟩
    | loaded t' src =>
      rw [hst] at ht hp
      dsimp only at ht
      split at ht
      · cases ht
      · next hne =>
        cases ht
        obtain ⟨p1, u, p2⟩ := hp
        exact p1.saveBytes p2 h.tidy f3 hne
    | adding _ => rw [hst] at ht; cases ht
    | unknown => rw [hst] at ht; cases ht
  obtain ⟨s1, ⟨s0, m1⟩, m2⟩ := hbytes
  have hfile : FileOf s1 (w1.write i (s1.alloc.block.prefix (s1.nNodes * c.L.nodeSize))) path := by
    rw [m1.fileOf]
    unfold World.read World.write
    dsimp only
    rw [g3]
    have : w1.content i = [] := by
      unfold World.create at f3
      split at f3
      · split at f3 <;> cases f3 <;> simp
      · cases f3
    simp [this]
  obtain ⟨t', l1, -⟩ := m1.reload hr.1 (Makes.hasTrees ⟨s0, m1⟩ hr.2.1) hr.2.2 hfile bk s
  refine ⟨t', w1.write i (s1.alloc.block.prefix (s1.nNodes * c.L.nodeSize)), ?_⟩
  unfold Idx.save
  rw [if_neg (by rw [hb']; simp), f3]
  simp only [bind, Except.bind, m2, l1]

theorem StoreOf.searches (hc : c.WF) (hN : c.N.Lawful) {x : Env c} {st : Store c.N.V} (h : StoreOf c bk numCPU creatable x st)
    {query : List c.N.V} (hq : GoodQuery c query) (k b : Int) {ctx : Ctx c} (ho : st.OffersSearch c numCPU ctx) :
    ∃ fuel ids ds o, x.idx.getNnsByVector fuel x.world query k b ctx = .ok (ids, ds, o) := by
  have hp := h.phase
  unfold Store.OffersSearch at ho
  cases hst : st.phase with
  | adding adds =>
    rw [hst] at hp
    obtain ⟨o', h1⟩ := C26_empty hc x.idx 0 x.world hq.length.le (k := k) (b := b) (Or.inl (Adding.roots hp)) ctx
    exact ⟨1, _, _, _, h1⟩
  | built t =>
    rw [hst] at hp ho
    obtain ⟨s, hs⟩ := id hp
    obtain ⟨N0, B, b1, -⟩ := hs.built
    obtain ⟨o1, o2⟩ := ho
    have hrl : x.idx.roots.length ≤ t.room numCPU := by
      have := B.nNodes
      unfold Table.room
      omega
    obtain ⟨⟨ids, ds, o⟩, hx⟩ := (C20_bound_partial hs o1 hN x.world hq k b ctx (Nat.lt_succ_self _)).2
      (le_trans (Nat.mul_le_mul_right _ hrl) o2)
    exact ⟨_, _, _, _, hx⟩
  | loaded t path =>
    rw [hst] at hp ho
    obtain ⟨hf, u, hl⟩ := hp
    obtain ⟨s0, s', N0, hs, hne, hfile, B, b1, R⟩ := hf.loaded hl
    obtain ⟨hn, htr, hk⟩ := hf.readable
    obtain ⟨⟨o1, o2⟩, o3⟩ := ho
    have hrl : x.idx.roots.length ≤ t.room numCPU := by
      refine le_trans ?_ b1
      have := List.subperm_of_subset (R.roots_nodup) (fun r hr => List.mem_range.2 (R.roots_mem hr).2.1 : x.idx.roots ⊆ List.range s'.nNodes)
      simpa using this.length_le
    obtain ⟨F, hF⟩ := C20_answers_loaded_partial hs hN hn hne hk o1 o2 hfile hl
    obtain ⟨⟨ids, ds, o⟩, hx⟩ := hF query hq k b ctx F le_rfl (le_trans (Nat.mul_le_mul_right _ hrl) o3)
    exact ⟨_, _, _, _, hx⟩
  | unknown => rw [hst] at ho; exact ho.elim

theorem StoreOf.answers (hc : c.WF) (hN : c.N.Lawful) (hg : ∀ q : List c.N.V, q.length = c.L.f → GoodQuery c q)
    (ht : Conc.Total c) (he : EventuallyBalanced c) {x : Env c} {st : Store c.N.V}
    (h : StoreOf c bk numCPU creatable x st) {q : Req c} (ho : st.Offers c bk numCPU creatable q) : ∃ a y, Serves bk numCPU q x a y := by
  obtain ⟨w, s⟩ := x
  have hp := h.phase
  cases q with
  | addItem i v =>
    obtain ⟨h1, h2, adds, h3⟩ := ho
    rw [h3] at hp
    obtain ⟨s', h4, -⟩ := (Adding.inv hp).addItem hc i v h1 h2
    exact ⟨_, _, .addItem h4⟩
  | build trees workers pol =>
    obtain ⟨h1, h2, adds, h3, h4⟩ := ho
    rw [h3] at hp
    have hI := Adding.inv hp
    have hbt : s.built = false := h.built.trans h1
    have hr : s.roots = [] := Adding.roots hp
    cases pol with
    | single =>
      obtain ⟨rf, s', h5⟩ := Idx.build_ok hc ht he hI hbt hr trees h4
      exact ⟨_, _, .build (.single _ _ _ (h5 _ _ _ le_rfl le_rfl le_rfl))⟩
    | multi =>
      obtain ⟨W, hW⟩ : ∃ W, numWorkers numCPU workers = some W := by
        have := h2 rfl
        unfold numWorkers
        split
        · exact ⟨_, rfl⟩
        · split
          · omega
          · exact ⟨_, rfl⟩
      have hf' : c.L.Fits (Conc.multiBound (slotCount adds) trees W) := by
        unfold treeRoom at h4; rw [hW] at h4; exact h4
      obtain ⟨s1, g1, g2, g3, g4, g5, g6, _⟩ := Idx.buildStart_spec hc hI hbt
      have hgd := Conc.start_good hc g2 g3 g4 g5 (g6.trans hr) trees W (hf'.mono (Conc.room_le _ _ trees W))
      obtain ⟨y, y1, y2⟩ := hgd.can_finish hc ht (he.canBalance s.rng)
      obtain ⟨G, q1, _⟩ := Conc.multi_grown hc hI hbt hr trees W hf' g1 y1 y2
      obtain ⟨s', F1, _⟩ := Idx.buildFinish_spec hc G (hf'.mono q1)
      exact ⟨_, _, .build (.multi hW ⟨s1, y, g1, y1, y2, F1⟩)⟩
  | save path =>
    by_cases h1 : st.everBuilt = true
    swap
    · have hbt : s.built = false := h.built.trans (by simpa using h1)
      exact ⟨_, _, .save (e := .err "can't save an index that hasn't been built") (s' := s) (w' := w) (by unfold Idx.save; rw [if_pos hbt])⟩
    · by_cases h2 : creatable path = true
      swap
      · have hbt : s.built = true := h.built.trans h1
        have hcr : w.create path = none := World.create_creatable.1 ((congrFun h.creatable path).trans (by simpa using h2))
        exact ⟨_, _, .save (e := .err "create") (s' := s) (w' := w) (by unfold Idx.save; rw [if_neg (by rw [hbt]; simp), hcr])⟩
      · rcases ho with ho | ho | ⟨t, h3, h4⟩
        · rw [h1] at ho; cases ho
        · rw [h2] at ho; cases ho
        · obtain ⟨s', w', h5⟩ := h.saved hc h1 h2 h3 h4
          exact ⟨_, _, .save h5⟩
  | load path =>
    obtain ⟨t, ht⟩ := Option.isSome_iff_exists.1 ho
    obtain ⟨⟨hn, htr, hk⟩, s1, ⟨s0, h2⟩, h3⟩ := h.files path t ht
    obtain ⟨t', l1, -⟩ := h2.reload hn (Makes.hasTrees ⟨s0, h2⟩ htr) hk h3 bk s
    exact ⟨_, _, .load l1⟩
  | close => exact ⟨_, _, .close⟩
  | getItem i =>
    obtain ⟨v, hv⟩ := Option.isSome_iff_exists.1 ho
    exact ⟨_, _, .getItem (h.getItem hv)⟩
  | getDistance i j =>
    obtain ⟨v, hv⟩ := Option.isSome_iff_exists.1 ho.1
    obtain ⟨u, hu⟩ := Option.isSome_iff_exists.1 ho.2
    exact ⟨_, _, .getDistance (h.getDistance hc hv hu)⟩
  | createContext => exact ⟨_, _, .createContext⟩
  | byVector q k b ctx =>
    obtain ⟨fuel, ids, ds, o, hx⟩ := h.searches hc hN (hg q ho.1) k b ho.2
    exact ⟨_, _, .byVector fuel hx⟩
  | byItem i k b ctx =>
    obtain ⟨v, hv⟩ := Option.isSome_iff_exists.1 ho.1
    obtain ⟨h1, h2⟩ := h.itemAt hv
    obtain ⟨fuel, ids, ds, o, hx⟩ := h.searches hc hN (hg v (h2.vec ▸ by simp [Node.vec])) k b ho.2
    refine ⟨_, _, .byItem (ids := ids) (ds := ds) (ctx' := o) fuel ?_⟩
    unfold Idx.getNnsByItem
    dsimp only at h1 h2 hx
    rw [h1]
    show s.getNnsByVector fuel w (Node.vec c.L c.C (s.mem w).get (i * c.L.nodeSize)) k b ctx = _
    rw [h2.vec]
    exact hx

/-- **C97.**  After every history of calls on a new index, every call that the table offers is answered. -/
theorem C97_answered (hc : c.WF) (hN : c.N.Lawful) (hg : ∀ q : List c.N.V, q.length = c.L.f → GoodQuery c q)
    (ht : Conc.Total c) (he : EventuallyBalanced c) (bk : Backend) (numCPU : Nat)
    {w : World} (hw : w.Tidy) (r : c.R.σ) (hint : Nat) {h : List (Req c × Resp c)} {y : Env c}
    (hs : ServesAll bk numCPU h ⟨w, Idx.new c r hint⟩ y) {q : Req c}
    (ho : ((Store.fresh c.N.V).afterAll c bk numCPU w.creatable h).Offers c bk numCPU w.creatable q) :
    ∃ a z, ServesAll bk numCPU (h ++ [(q, a)]) ⟨w, Idx.new c r hint⟩ z := by
  obtain ⟨a, z, hz⟩ := (StoreOf.all hc hN hg hs (StoreOf.new hc hw r hint)).2.answers hc hN hg ht he ho
  exact ⟨a, z, hs.snoc hz⟩

/-- A program that makes the calls `p` gets its answers. -/
theorem StoreOf.plays (hc : c.WF) (hN : c.N.Lawful) (hg : ∀ q : List c.N.V, q.length = c.L.f → GoodQuery c q)
    (ht : Conc.Total c) (he : EventuallyBalanced c) (p : List (Req c)) : ∀ {x : Env c} {st : Store c.N.V},
    StoreOf c bk numCPU creatable x st → st.Plays c bk numCPU creatable p →
    ∃ h y, h.map Prod.fst = p ∧ ServesAll bk numCPU h x y ∧ st.Explains c bk numCPU creatable h := by
  induction p with
  | nil => intro x st _ _; exact ⟨[], x, rfl, .nil x, trivial⟩
  | cons q p ih =>
    intro x st hx hp
    obtain ⟨a, y, hy⟩ := hx.answers hc hN hg ht he hp.1
    obtain ⟨k1, k2⟩ := hx.step hc hN hg hy
    obtain ⟨h, z, h1, h2, h3⟩ := ih k2 (hp.2 a k1)
    exact ⟨(q, a) :: h, z, by simp [h1], .cons hy h2, k1, h3⟩

/-- **C97, programs.**  A program that makes only calls that the table offers runs to its end, and all its answers are right. -/
theorem C97_program (hc : c.WF) (hN : c.N.Lawful) (hg : ∀ q : List c.N.V, q.length = c.L.f → GoodQuery c q)
    (ht : Conc.Total c) (he : EventuallyBalanced c) (bk : Backend) (numCPU : Nat)
    {w : World} (hw : w.Tidy) (r : c.R.σ) (hint : Nat) {p : List (Req c)}
    (hp : (Store.fresh c.N.V).Plays c bk numCPU w.creatable p) :
    ∃ h y, h.map Prod.fst = p ∧ ServesAll bk numCPU h ⟨w, Idx.new c r hint⟩ y ∧
      (Store.fresh c.N.V).Explains c bk numCPU w.creatable h :=
  StoreOf.plays hc hN hg ht he p (StoreOf.new hc hw r hint) hp

/-! ### the indexes of the repository -/

open Ieee in
theorem Index32.lawful (h : Index32 c) : c.N.Lawful := by
  cases h with
  | angular32 => exact ieee32_lawful
  | angular64 => exact ieee64_lawful
  | dot32 => exact ieee32_lawful
  | dot64 => exact ieee64_lawful

theorem Index32.goodQuery (h : Index32 c) (q : List c.N.V) (hq : q.length = c.L.f) : GoodQuery c q := by
  cases h with
  | angular32 h _ => exact ⟨hq, angular_marginOk hq h⟩
  | angular64 h _ => exact ⟨hq, angular_marginOk hq h⟩
  | dot32 h _ => exact ⟨hq, dot_marginOk hq h⟩
  | dot64 h _ => exact ⟨hq, dot_marginOk hq h⟩

/-- **C96** for the indexes of the repository with `uint32` item numbers and the default generator. -/
theorem C96_index32 (hi : Index32 c) (bk : Backend) (numCPU : Nat) {w : World} (hw : w.Tidy) (r : c.R.σ) (hint : Nat)
    {h : List (Req c × Resp c)} {y : Env c} (hs : ServesAll bk numCPU h ⟨w, Idx.new c r hint⟩ y) :
    (Store.fresh c.N.V).Explains c bk numCPU w.creatable h :=
  C96_history hi.wf hi.lawful hi.goodQuery bk numCPU hw r hint hs

/-- **C97** for the indexes of the repository with `uint32` item numbers and the default generator. -/
theorem C97_index32 (hi : Index32 c) (bk : Backend) (numCPU : Nat) {w : World} (hw : w.Tidy) (r : c.R.σ) (hint : Nat) {p : List (Req c)}
    (hp : (Store.fresh c.N.V).Plays c bk numCPU w.creatable p) :
    ∃ h y, h.map Prod.fst = p ∧ ServesAll bk numCPU h ⟨w, Idx.new c r hint⟩ y ∧
      (Store.fresh c.N.V).Explains c bk numCPU w.creatable h :=
  C97_program hi.wf hi.lawful hi.goodQuery hi.total hi.balanced bk numCPU hw r hint hp

/-! ### a concrete program -/

theorem Store.plays_adds (adds : List (Nat × List c.N.V)) (hl : LegalAdds c adds) : ∀ {st : Store c.N.V} {a : List (Nat × List c.N.V)}
    {p : List (Req c)}, st.phase = .adding a → Store.Plays c bk numCPU creatable { st with phase := .adding (a ++ adds) } p →
    st.Plays c bk numCPU creatable (adds.map (fun x => .addItem x.1 x.2) ++ p) := by
  induction adds with
  | nil =>
    intro st a p h hp
    rw [List.append_nil, ← h] at hp
    exact hp
  | cons x adds ih =>
    intro st a p h hp
    have hx := hl x (by simp)
    refine ⟨⟨hx.1, hx.2, a, h⟩, fun b _ => ?_⟩
    have e : st.after c bk numCPU creatable (.addItem x.1 x.2) b = { st with phase := .adding (a ++ [x]) } := by
      unfold Store.after
      dsimp only
      rw [h]
      dsimp only
      rw [if_pos hx.2]
    rw [e]
    refine ih (fun y hy => hl y (by simp [hy])) rfl ?_
    simpa using hp

/-- A program: items are added, trees built, the index saved to two files, closed, loaded from the first of them, an item is read, two searches are
made, and the index is closed and filled again. -/
def program (c : Cfg) (adds : List (Nat × List c.N.V)) (i : Nat) (q : List c.N.V) (ctx : Ctx c) : List (Req c) :=
  adds.map (fun x => .addItem x.1 x.2) ++
    [.build 3 2 .multi, .save "a", .save "b", .close, .load "a", .getItem i, .byVector q 5 (-1) ctx, .byItem i 5 2000 ctx, .close, .addItem 0 q]

theorem program_plays (hl : LegalAdds c adds) (hfit : c.L.Fits (treeRoom numCPU .multi (slotCount adds) 3 2))
    (hr : Table.Readable c.L ⟨adds, 3, 2, .multi⟩) {i : Nat} (hit : (lastAdded adds i).isSome)
    (hsk : SplitsKept c numCPU .multi (slotCount adds) 3 2) (hck : c.L.CopiesKept (slotCount adds)) {q : List c.N.V} (hq : q.length = c.L.f)
    (hq1 : c.L.Fits (0 + 1)) {ctx : Ctx c} (hctx : treeRoom numCPU .multi (slotCount adds) 3 2 * slotCount adds ≤ ctx.nns.length)
    (ha : creatable "a" = true) (hb : creatable "b" = true) :
    (Store.fresh c.N.V).Plays c bk numCPU creatable (program c adds i q ctx) := by
  refine Store.plays_adds (a := []) adds hl rfl ?_
  obtain ⟨v, hv⟩ := Option.isSome_iff_exists.1 hit
  refine ⟨⟨rfl, fun _ => by decide, adds, rfl, hfit⟩, fun a0 _ => ?_⟩
  have e0 : Store.after c bk numCPU creatable { (Store.fresh c.N.V) with phase := .adding ([] ++ adds) } (.build 3 2 .multi) a0 =
      ⟨.built ⟨adds, 3, 2, .multi⟩, true, fun _ => none⟩ := by
    unfold Store.after
    dsimp only [List.nil_append]
    rw [if_pos hfit]
    rfl
  rw [e0]
  refine ⟨Or.inr (Or.inr ⟨_, rfl, hr⟩), fun a1 _ => ?_⟩
  have e1 : Store.after c bk numCPU creatable ⟨.built ⟨adds, 3, 2, .multi⟩, true, fun _ => none⟩ (.save "a") a1 =
      ⟨.loaded ⟨adds, 3, 2, .multi⟩ "a", true, fun p => if p = "a" then some ⟨adds, 3, 2, .multi⟩ else none⟩ := by
    unfold Store.after
    dsimp only
    rw [if_neg (by rw [ha]; simp)]
    dsimp only [Store.saves]
    rw [if_pos hr]
  rw [e1]
  have hs2 : Store.saves c bk ⟨.loaded ⟨adds, 3, 2, .multi⟩ "a", true, fun p => if p = "a" then some ⟨adds, 3, 2, .multi⟩ else none⟩ "b" =
      some ⟨adds, 3, 2, .multi⟩ := by
    unfold Store.saves
    dsimp only
    rw [if_neg (fun h => by simp at h)]
  refine ⟨Or.inr (Or.inr ⟨_, hs2, hr⟩), fun a2 _ => ?_⟩
  have e2 : Store.after c bk numCPU creatable ⟨.loaded ⟨adds, 3, 2, .multi⟩ "a", true, fun p => if p = "a" then some ⟨adds, 3, 2, .multi⟩ else none⟩
      (.save "b") a2 = ⟨.loaded ⟨adds, 3, 2, .multi⟩ "b", true,
        fun p => if p = "b" then some ⟨adds, 3, 2, .multi⟩ else if p = "a" then some ⟨adds, 3, 2, .multi⟩ else none⟩ := by
    unfold Store.after
    dsimp only
    rw [if_neg (by rw [hb]; simp), hs2]
    dsimp only
    rw [if_pos hr]
  rw [e2]
  have hf : (if "a" = "b" then some (⟨adds, 3, 2, .multi⟩ : Table c.N.V) else if "a" = "a" then some ⟨adds, 3, 2, .multi⟩ else none) =
      some ⟨adds, 3, 2, .multi⟩ := by simp
  refine ⟨trivial, fun a3 _ => ⟨Option.isSome_iff_exists.2 ⟨_, hf⟩, fun a4 h4 => ?_⟩⟩
  have ea : a4 = .error .nil := by
    cases a4 with
    | error e => exact congrArg _ (h4 _ hf)
    | _ => exact h4.elim
  subst ea
  have e4 : Store.after c bk numCPU creatable (Store.after c bk numCPU creatable ⟨.loaded ⟨adds, 3, 2, .multi⟩ "b", true,
      fun p => if p = "b" then some ⟨adds, 3, 2, .multi⟩ else if p = "a" then some ⟨adds, 3, 2, .multi⟩ else none⟩ .close a3)
      (.load "a") (.error .nil) = ⟨.loaded ⟨adds, 3, 2, .multi⟩ "a", true,
        fun p => if p = "b" then some ⟨adds, 3, 2, .multi⟩ else if p = "a" then some ⟨adds, 3, 2, .multi⟩ else none⟩ := by
    unfold Store.after
    dsimp only
    rw [hf]
  rw [e4]
  exact ⟨hit, fun _ _ => ⟨⟨hq, ⟨hsk, hck⟩, hctx⟩, fun _ _ => ⟨⟨hit, ⟨hsk, hck⟩, hctx⟩, fun _ _ => ⟨trivial, fun _ _ => ⟨⟨hq, hq1, [], rfl⟩,
    fun _ _ => trivial⟩⟩⟩⟩⟩

theorem oneFile_tidy (path : String) (bytes : List Byte) : (oneFile path bytes).Tidy := by
  refine ⟨fun p q i hp hq => ?_, fun p i hp => ?_⟩
  · unfold oneFile at hp hq
    dsimp only at hp hq
    split at hp <;> split at hq <;> simp_all
  · unfold oneFile at hp ⊢
    dsimp only at hp ⊢
    split at hp
    · cases hp; decide
    · cases hp

/-- The program runs to its end on an index of the repository, with the default generator as it is after `NewKiss32Random(0)`, mapped files and a file
"a" that is there before; its answers are right. -/
example (ctx : Ctx (angular32 4 12)) (hctx : 10000 ≤ ctx.nns.length) :
    (oneFile "a" [1]).Tidy ∧ ∃ h y, h.map Prod.fst = program (angular32 4 12) (longAdds 20) 7 query12 ctx ∧
      ServesAll .mmap 4 h ⟨oneFile "a" [1], Idx.new (angular32 4 12) (Kiss32.new 0) 0⟩ y ∧
      (Store.fresh ieee32.V).Explains (angular32 4 12) .mmap 4 (oneFile "a" [1]).creatable h := by
  have hfit : (angular32 4 12).L.Fits (treeRoom 4 .multi (slotCount (longAdds 20)) 3 2) := by decide +kernel
  have hw := oneFile_tidy "a" [1]
  refine ⟨hw, C97_index32 (.angular32 (by decide) (by decide)) .mmap 4 hw _ 0 (program_plays (legalAdds_of (by decide +kernel)) hfit
    ⟨by decide +kernel, ⟨Or.inl (by decide), (fun _ => by decide)⟩, by unfold Layout.CountKept; decide +kernel⟩ (by decide +kernel)
    (splitsKept_of_length (angular32_wf (Or.inl rfl) (by decide)) (by decide) hfit) (Or.inl (by decide +kernel)) (by decide) (by decide +kernel)
    (le_trans (by decide +kernel) hctx) rfl rfl)⟩

/-- The table after the items were added. -/
theorem Store.afterAll_adds (adds : List (Nat × List c.N.V)) (hl : LegalAdds c adds) : ∀ {st : Store c.N.V} {a : List (Nat × List c.N.V)}
    {h : List (Req c × Resp c)}, st.phase = .adding a →
    st.afterAll c bk numCPU creatable (adds.map (fun x => (.addItem x.1 x.2, .unit)) ++ h) =
      Store.afterAll c bk numCPU creatable { st with phase := .adding (a ++ adds) } h := by
  induction adds with
  | nil =>
    intro st a h hs
    rw [List.append_nil, ← hs]
    rfl
  | cons x adds ih =>
    intro st a h hs
    have hx := hl x (by simp)
    have e : st.after c bk numCPU creatable (.addItem x.1 x.2) .unit = { st with phase := .adding (a ++ [x]) } := by
      unfold Store.after
      dsimp only
      rw [hs]
      dsimp only
      rw [if_pos hx.2]
    show (st.after c bk numCPU creatable (.addItem x.1 x.2) .unit).afterAll c bk numCPU creatable (adds.map (fun x => (.addItem x.1 x.2, .unit)) ++ h) = _
    rw [e, ih (fun y hy => hl y (by simp [hy])) (st := { st with phase := .adding (a ++ [x]) }) (a := a ++ [x]) rfl]
    simp

/-- Adding, building and saving: the history exists, and the table at its end is read from the file. -/
theorem build_save_history (hi : Index32 c) {w : World} (hw : w.Tidy) (r : c.R.σ) {adds : List (Nat × List c.N.V)} (hl : LegalAdds c adds)
    {trees workers : Int} {pol : BuildPolicy} (hwk : pol = .multi → -1 ≤ workers)
    (hfit : c.L.Fits (treeRoom numCPU pol (slotCount adds) trees workers)) (hr : Table.Readable c.L ⟨adds, trees, workers, pol⟩) {path : String}
    (hp : w.creatable path = true) : ∃ y, ServesAll bk numCPU
      (adds.map (fun x => (.addItem x.1 x.2, .unit)) ++ [(.build trees workers pol, .unit), (.save path, .error .nil)]) ⟨w, Idx.new c r 0⟩ y ∧
      ((Store.fresh c.N.V).afterAll c bk numCPU w.creatable
        (adds.map (fun x => (.addItem x.1 x.2, .unit)) ++ [(.build trees workers pol, .unit), (.save path, .error .nil)])).finished =
          some (⟨adds, trees, workers, pol⟩, true) := by
  obtain ⟨s, h0, -⟩ := addAll_spec hi.wf adds _ _ _ (Idx.ItemInv.new c hi.wf.layout r 0) hl
  have hs : ServesAll bk numCPU (adds.map (fun x => (.addItem x.1 x.2, .unit))) ⟨w, Idx.new c r 0⟩ ⟨w, s⟩ := by
    have := servesAll_adds (bk := bk) (numCPU := numCPU) w adds h0 (.nil _)
    rwa [List.append_nil] at this
  have e0 := Store.afterAll_adds (bk := bk) (numCPU := numCPU) (creatable := w.creatable) adds hl (st := .fresh c.N.V) (a := []) (h := []) rfl
  rw [List.append_nil] at e0
  obtain ⟨-, k1⟩ := StoreOf.all hi.wf hi.lawful hi.goodQuery hs (StoreOf.new hi.wf hw r 0)
  rw [e0] at k1
  have k1 : StoreOf c bk numCPU w.creatable ⟨w, s⟩ ⟨.adding adds, false, fun _ => none⟩ := k1
  obtain ⟨a, y, hy⟩ := k1.answers (q := .build trees workers pol) hi.wf hi.lawful hi.goodQuery hi.total hi.balanced ⟨rfl, hwk, adds, rfl, hfit⟩
  have ha : a = .unit := by cases hy; rfl
  subst ha
  obtain ⟨-, k2⟩ := k1.step hi.wf hi.lawful hi.goodQuery hy
  have e1 : Store.after c bk numCPU w.creatable ⟨.adding adds, false, fun _ => none⟩ (.build trees workers pol) .unit =
      ⟨.built ⟨adds, trees, workers, pol⟩, true, fun _ => none⟩ := by
    unfold Store.after
    dsimp only
    rw [if_pos hfit]
  rw [e1] at k2
  obtain ⟨a, z, hz⟩ := k2.answers (q := .save path) hi.wf hi.lawful hi.goodQuery hi.total hi.balanced (Or.inr (Or.inr ⟨_, rfl, hr⟩))
  obtain ⟨k3, -⟩ := k2.step hi.wf hi.lawful hi.goodQuery hz
  have ha : a = .error .nil := by
    cases a with
    | error e => exact congrArg _ (k3.2.2 _ rfl hp rfl hr)
    | _ => exact k3.elim
  subst ha
  refine ⟨z, servesAll_adds w adds h0 (.cons hy (.cons hz (.nil _))), ?_⟩
  rw [Store.afterAll_adds adds hl (a := []) rfl]
  show (Store.after c bk numCPU w.creatable (Store.after c bk numCPU w.creatable ⟨.adding adds, false, fun _ => none⟩
    (.build trees workers pol) .unit) (.save path) (.error .nil)).finished = _
  rw [e1]
  unfold Store.after
  dsimp only
  rw [if_neg (by rw [hp]; simp)]
  dsimp only [Store.saves]
  rw [if_pos hr]
  rfl

end
end Annoy
