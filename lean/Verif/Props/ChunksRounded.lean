import Verif.Props.Chunks
import Verif.Props.RoundingDemo

/-! C76 with rounded arithmetic: no cracks if the coordinates of the world's lattice are representable; a crack between two chunks
if they are not. -/

set_option linter.unusedSectionVars false

namespace Isomesh
open Spec

noncomputable section

namespace Spec

/-- The coordinates of the lattice points whose numbers are at most `M` are representable: no rounding occurs when they are
computed. -/
structure ExactLattice (F : FloatFormat) (origin : Vec3 (Fl F)) (step : Fl F) (M : ℤ) : Prop where
  small : M ≤ 2 ^ 24
  mul : ∀ m : ℤ, |m| ≤ M → F.Rep (m * step.val)
  pos : ∀ (m : ℤ) (a : Axis), |m| ≤ M → F.Rep (m * step.val + (origin.get a).val)

end Spec

variable {F : FloatFormat}

theorem lat1_pos {st o : Fl F} {M : ℤ} (hM : M ≤ 2 ^ 24) (hm : ∀ m : ℤ, |m| ≤ M → F.Rep (m * st.val))
    (hp : ∀ m : ℤ, |m| ≤ M → F.Rep (m * st.val + o.val)) {m : ℤ} (h : |m| ≤ M) : ((m : Fl F) * st + o).val = m * st.val + o.val := by
  rw [Fl.val_add, Fl.val_mul, Fl.val_int (h.trans hM), F.fl_rep _ (hm m h), F.fl_rep _ (hp m h)]

theorem lat1_chunk {st o : Fl F} {M : ℤ} (hM : M ≤ 2 ^ 24) (hm : ∀ m : ℤ, |m| ≤ M → F.Rep (m * st.val))
    (hp : ∀ m : ℤ, |m| ≤ M → F.Rep (m * st.val + o.val)) {c n : ℤ} (hc : |c| ≤ M) (hn : |n| ≤ M) (h : |n * c| ≤ M) :
    ((c : Fl F) * ((n : Fl F) * st) + o).val = ((n * c : ℤ) : ℝ) * st.val + o.val := by
  rw [Fl.val_add, Fl.val_mul, Fl.val_mul, Fl.val_int (hc.trans hM), Fl.val_int (hn.trans hM), F.fl_rep _ (hm n hn)]
  have e : (c : ℝ) * (n * st.val) = ((n * c : ℤ) : ℝ) * st.val := by push_cast; ring
  rw [e, F.fl_rep _ (hm _ h), F.fl_rep _ (hp _ h)]

theorem lat1_in {st o q : Fl F} {M : ℤ} (hM : M ≤ 2 ^ 24) (hm : ∀ m : ℤ, |m| ≤ M → F.Rep (m * st.val))
    (hp : ∀ m : ℤ, |m| ≤ M → F.Rep (m * st.val + o.val)) {d m : ℤ} (hq : q.val = d * st.val + o.val) (h1 : |m| ≤ M)
    (h2 : |m + d| ≤ M) : ((m : Fl F) * st + q).val = ((m + d : ℤ) : ℝ) * st.val + o.val := by
  rw [Fl.val_add, Fl.val_mul, Fl.val_int (h1.trans hM), F.fl_rep _ (hm m h1), hq]
  have e : (m : ℝ) * st.val + (d * st.val + o.val) = ((m + d : ℤ) : ℝ) * st.val + o.val := by push_cast; ring
  rw [e, F.fl_rep _ (hp _ h2)]

theorem lat1_stepped {st o q : Fl F} {M : ℤ} (hp : ∀ m : ℤ, |m| ≤ M → F.Rep (m * st.val + o.val)) {d : ℤ}
    (hq : q.val = d * st.val + o.val) (j : Nat) (h : ∀ i : Nat, i ≤ j → |d + i| ≤ M) :
    (stepped q st j).val = ((d + j : ℤ) : ℝ) * st.val + o.val := by
  induction j with
  | zero => rw [stepped, hq]; simp
  | succ j ih =>
    rw [stepped, Fl.val_add, ih (fun i hi => h i (by omega))]
    have e : ((d + j : ℤ) : ℝ) * st.val + o.val + st.val = ((d + (j + 1 : ℕ) : ℤ) : ℝ) * st.val + o.val := by push_cast; ring
    rw [e, F.fl_rep _ (hp _ (h (j + 1) (by omega)))]

/-- The chunk lies within the part of the lattice where coordinates are exact. -/
def Spec.WithinLattice (M : ℤ) (n : Nat) (c : IVec3) : Prop := ∀ a : Axis, (n : ℤ) * |c.get a| + n ≤ M

variable {origin : Vec3 (Fl F)} {step : Fl F} {n : Nat} {M : ℤ}

/-- One coordinate of everything the library computes for a chunk. -/
theorem lat1_all {st o : Fl F} (hM : M ≤ 2 ^ 24) (hm : ∀ m : ℤ, |m| ≤ M → F.Rep (m * st.val))
    (hp : ∀ m : ℤ, |m| ≤ M → F.Rep (m * st.val + o.val)) {c h : ℤ} (hn : (n : ℤ) = 2 * h) (h0 : 1 ≤ h) (hc : n * |c| + n ≤ M) {p : ℤ}
    (h1 : -h ≤ p) (h2 : p ≤ h) :
    stepped (((-h : ℤ) : Fl F) * st + ((c : Fl F) * (((n : Int) : Fl F) * st) + o)) st (p + h).toNat = ((p + n * c : ℤ) : Fl F) * st + o ∧
    ((p : Fl F) * st + ((c : Fl F) * (((n : Int) : Fl F) * st) + o)) = ((p + n * c : ℤ) : Fl F) * st + o := by
  have habs : |(n : ℤ) * c| = n * |c| := by rw [abs_mul, abs_of_nonneg (by omega : (0 : ℤ) ≤ n)]
  have hcn : |c| ≤ n * |c| := by nlinarith [abs_nonneg c]
  have hle : |(n : ℤ) * c| + n ≤ M := by rw [habs]; exact hc
  have hnn := abs_nonneg ((n : ℤ) * c)
  have hq := lat1_chunk hM hm hp (c := c) (n := n) (by omega) (by rw [abs_of_nonneg] <;> omega) (by omega)
  have hb : ∀ m : ℤ, -n ≤ m → m ≤ n → |m + n * c| ≤ M := by
    intro m a b
    have := abs_add_le m (n * c)
    have : |m| ≤ n := abs_le.2 ⟨a, b⟩
    omega
  have hs : ∀ m : ℤ, -n ≤ m → m ≤ n → |m| ≤ M := by
    intro m a b
    have : |m| ≤ n := abs_le.2 ⟨a, b⟩
    have := abs_nonneg ((n : ℤ) * c)
    omega
  have hlow := lat1_in hM hm hp hq (m := -h) (hs _ (by omega) (by omega)) (hb _ (by omega) (by omega))
  have hpos := lat1_pos hM hm hp (m := p + n * c) (hb _ (by omega) (by omega))
  constructor
  · apply Fl.ext
    rw [lat1_stepped (M := M) hp hlow, hpos]
    · have : (-h + n * c + ((p + h).toNat : ℤ) : ℤ) = p + n * c := by omega
      rw [this]
    · intro i hi
      have := hb (-h + i) (by omega) (by omega)
      rwa [show -h + (n : ℤ) * c + i = -h + i + n * c by omega]
  · apply Fl.ext
    rw [lat1_in hM hm hp hq (m := p) (hs _ (by omega) (by omega)) (hb _ (by omega) (by omega)), hpos]

theorem lattice_exact (hl : ExactLattice F origin step M) {c : IVec3} (hc : WithinLattice M n c) {h : ℤ} (hn : (n : ℤ) = 2 * h)
    (h0 : 1 ≤ h) {p : IVec3} (hp : InCube h p) :
    samplePos (worldPos origin (((n : Int) : Fl F) * step) c) step h p = worldPos origin step (chunkPoint n c p) ∧
    worldPos (worldPos origin (((n : Int) : Fl F) * step) c) step p = worldPos origin step (chunkPoint n c p) := by
  obtain ⟨⟨x1, x2⟩, ⟨y1, y2⟩, ⟨z1, z2⟩⟩ := hp
  have X := lat1_all hl.small hl.mul (fun m => hl.pos m .X) hn h0 (hc .X) x1 x2
  have Y := lat1_all hl.small hl.mul (fun m => hl.pos m .Y) hn h0 (hc .Y) y1 y2
  have Z := lat1_all hl.small hl.mul (fun m => hl.pos m .Z) hn h0 (hc .Z) z1 z2
  constructor
  · unfold samplePos
    ext1
    · exact X.1
    · exact Y.1
    · exact Z.1
  · ext1
    · exact X.2
    · exact Y.2
    · exact Z.2

variable {f : ScalarField (Fl F)} {sv : ZeroFinder (Fl F)} {nrm : Vec3 (Fl F) → Vec3 (Fl F)} {chunks : List (Chunk (Fl F))}

theorem computed_ok_rounded (hf : ProperField f) (hl : ExactLattice F origin step M) {k : Chunk (Fl F)} (hc : WithinLattice M n k.coord)
    (h : k.Computed f sv nrm origin step n) :
    ChunkOk nrm n (fun p => decide (f.value (worldPos origin step p) ≤ 0)) k := by
  obtain ⟨g, hg, hsz, hst, hpos, hfill, hres⟩ := h
  obtain ⟨g', e, ⟨h1, h2, -, -⟩, hmat⟩ := C73_fill_materials hg f sv
  rw [hfill] at e; cases e
  refine ⟨C07_filled hg hf hfill, by rw [h1, hsz], ?_, hres⟩
  intro p hp
  have hmax : k.grid.maxCoord = g.maxCoord := h2
  have hp' : InCube g.maxCoord p := by rwa [hmax] at hp
  have hm := hmat p hp'
  have e1 := hg.wf.half_eq
  have e2 := hg.wf.two_le
  rw [hsz] at e1 e2
  unfold solidAt
  rw [hm, hst, hpos, (lattice_exact hl hc (h := g.maxCoord) e1 (by show 1 ≤ g.half; omega) hp').1]
  simp only [vertexMaterial_le]
  by_cases hv : f.value (worldPos origin step (chunkPoint n k.coord p)) ≤ 0
  · simp [hv, hf _ hv]
  · simp [hv]

/-- C76 with rounded arithmetic.  If the coordinates of the lattice points of the chunks are representable (for example integers
with step 1, or multiples of a power of two), the meshes of the chunks fit together without cracks also when everything is computed
with rounding. -/
theorem C76_no_cracks_rounded (hf : ProperField f) (hl : ExactLattice F origin step M)
    (hk : ∀ k ∈ chunks, k.Computed f sv nrm origin step n ∧ WithinLattice M n k.coord)
    (hd : (chunks.map Chunk.coord).Nodup) (E F : LEdge) :
    let T := chunks.flatMap fun k => k.worldSides n
    T.count (E, F) ≤ 1 ∧
    (T.count (E, F) = T.count (F, E) ∨
      ∃ P Q, CellCovered n chunks P ∧ ¬ CellCovered n chunks Q ∧ Q ∈ cellNeighbours P ∧
        E.InCell P ∧ E.InCell Q ∧ F.InCell P ∧ F.InCell Q) := by
  obtain ⟨h1, h2⟩ := C76_sides_match (fun k hm => computed_ok_rounded hf hl (hk k hm).2 (hk k hm).1) hd E F
  refine ⟨h1, h2.imp_right ?_⟩
  rintro ⟨P, Q, a, b, c, d, e, f, g, -⟩
  exact ⟨P, Q, a, b, c, d, e, f, g⟩

/-- Under the same condition records of different chunks on a common edge of the lattice are equal, apart from the local
coordinates of the edge. -/
theorem C76_same_record_rounded (hl : ExactLattice F origin step M) {k k' : Chunk (Fl F)}
    (hk : k.Computed f sv nrm origin step n ∧ WithinLattice M n k.coord)
    (hk' : k'.Computed f sv nrm origin step n ∧ WithinLattice M n k'.coord) {D : Axis} {e e' : GridEdge (Fl F)}
    (he : e ∈ k.grid.edges D) (he' : e' ∈ k'.grid.edges D)
    (hsame : chunkPoint n k.coord e.lesser = chunkPoint n k'.coord e'.lesser) :
    e'.gradient = e.gradient ∧ e'.offset = e.offset ∧ e'.lesserSolid = e.lesserSolid ∧ e'.material = e.material := by
  have key : ∀ {k : Chunk (Fl F)}, k.Computed f sv nrm origin step n ∧ WithinLattice M n k.coord → ∀ e ∈ k.grid.edges D,
      let w := worldPos origin step
      let p := chunkPoint n k.coord e.lesser
      let r := sampledRecord f sv w w step D p
      e.gradient = r.gradient ∧ e.offset = r.offset ∧ e.lesserSolid = r.lesserSolid ∧ e.material = r.material := by
    rintro k ⟨⟨g, hg, hsz, hst, hpos, hfill, hres⟩, hc⟩ e he
    obtain ⟨p, hin, -, rfl⟩ := ((C73_fill_edges hg hfill D).1 e).1 he
    have e1 := hg.wf.half_eq
    have e2 := hg.wf.two_le
    rw [hsz] at e1 e2
    have h0 : 1 ≤ g.maxCoord := by show 1 ≤ g.half; omega
    have i1 : InCube g.maxCoord p := hin p (by cases D <;> simp [edgeVertices])
    have i2 : InCube g.maxCoord (edgeEnd D p) := hin _ (by cases D <;> simp [edgeVertices, edgeEnd])
    obtain ⟨s1, w1⟩ := lattice_exact hl hc (h := g.maxCoord) e1 h0 i1
    obtain ⟨s2, w2⟩ := lattice_exact hl hc (h := g.maxCoord) e1 h0 i2
    have hend : chunkPoint n k.coord (edgeEnd D p) = edgeEnd D (chunkPoint n k.coord p) := by
      cases D <;> exact chunkPoint_shift n _ p _ _ _
    rw [hend] at s2 w2
    have hcc : sampledCoord f sv (samplePos g.globalPos g.step g.maxCoord) (worldPos g.globalPos g.step) g.step D p =
        sampledCoord f sv (worldPos origin step) (worldPos origin step) step D (chunkPoint n k.coord p) := by
      unfold sampledCoord
      rw [hpos, hst, s1, s2, w1]
    dsimp only [sampledRecord]
    rw [hcc, hpos, hst, s1, s2, w1]
    exact ⟨rfl, rfl, rfl, rfl⟩
  have a := key hk e he
  have b := key hk' e' he'
  dsimp only at a b
  rw [← hsame] at b
  exact ⟨b.1.trans a.1.symm, b.2.1.trans a.2.1.symm, b.2.2.1.trans a.2.2.1.symm, b.2.2.2.trans a.2.2.2.symm⟩

/-- Integer coordinates are exact in every format. -/
theorem exact_integers (F : FloatFormat) : ExactLattice F ⟨0, 0, 0⟩ 1 (2 ^ 24) where
  small := le_rfl
  mul m h := by rw [Fl.val_one, mul_one]; exact F.rep_int m h
  pos m a h := by
    have : ((⟨0, 0, 0⟩ : Vec3 (Fl F)).get a).val = 0 := by cases a <;> exact Fl.val_zero
    rw [this, Fl.val_one, mul_one, add_zero]; exact F.rep_int m h

/-- Solid where `x ≤ 3`; the hypotheses of `C76_no_cracks_rounded` hold for two chunks with integer coordinates. -/
example : ∃ chunks : List (Chunk (Fl f64)), chunks.length = 2 ∧
    (∀ k ∈ chunks, k.Computed roundField (bisectionFinder 8) id ⟨0, 0, 0⟩ 1 4 ∧ WithinLattice (2 ^ 24) 4 k.coord) ∧
    (chunks.map Chunk.coord).Nodup := by
  have hex : ∀ c : IVec3, (∀ a, |c.get a| ≤ 1) → ∃ k : Chunk (Fl f64), k.coord = c ∧
      k.Computed roundField (bisectionFinder 8) id ⟨0, 0, 0⟩ 1 4 ∧ WithinLattice (2 ^ 24) 4 k.coord := by
    intro c hc
    generalize hpos : worldPos (⟨0, 0, 0⟩ : Vec3 (Fl f64)) ((((4 : Nat) : Int) : Fl f64) * 1) c = pos
    obtain ⟨g, hg, hs, hp, ht⟩ : ∃ g : Grid (Fl f64), Grid.mk' 4 pos 1 = .ok g ∧ g.size = 4 ∧ g.globalPos = pos ∧
      g.step = 1 := ⟨_, rfl, rfl, rfl, rfl⟩
    have hr : g.Reachable := .mk hg
    obtain ⟨g', e, -⟩ := C73_fill_materials hr roundField (bisectionFinder 8)
    obtain ⟨w, hres, -⟩ := C15_valid (C07_filled hr (by intro q _; show Material.Stone ≠ .Empty; decide) e) id
    exact ⟨⟨c, g', w⟩, rfl, ⟨g, hr, hs, ht, hp.trans hpos.symm, e, hres⟩, fun a => by have := hc a; push_cast; norm_num; omega⟩
  obtain ⟨k, hc, hk⟩ := hex ⟨0, 0, 0⟩ (by intro a; cases a <;> norm_num [IVec3.get])
  obtain ⟨k', hc', hk'⟩ := hex ⟨1, 0, 0⟩ (by intro a; cases a <;> norm_num [IVec3.get])
  refine ⟨[k, k'], rfl, ?_, by simp [hc, hc']⟩
  intro x hx
  rcases List.mem_pair.1 hx with rfl | rfl
  · exact hk
  · exact hk'

/-! ### A gap -/

section Gap
variable {r : ℝ → ℤ} (hm : Monotone r) (hn : ∀ y, |(r y : ℝ) - y| ≤ 1 / 2)

/-- `double` with any rounding to nearest. -/
abbrev dbl : FloatFormat := binaryFormat 53 (by norm_num) r hm (nearest_int hn)

/-- The numbers 10 and 11 and the step 1 + 3 / 2^52. -/
def gapNum (n : ℤ) (h : |n| ≤ 2 ^ 24) : Fl (dbl hm hn) := ⟨n, (dbl hm hn).rep_int n h⟩
def gapStep : Fl (dbl hm hn) := ⟨1 + 3 / 2 ^ 52, 2 ^ 52 + 3, -52, by norm_num, by norm_num⟩
def gapOrigin : Vec3 (Fl (dbl hm hn)) := ⟨gapNum hm hn 10 (by norm_num), 0, 0⟩

/-- Solid where `x ≤ 11` or `y ≤ 0`. -/
def gapField : ScalarField (Fl (dbl hm hn)) where
  value q := min (q.x - gapNum hm hn 11 (by norm_num)) q.y
  grad _ := ⟨1, 0, 0⟩
  material _ _ := .Stone

theorem gap_low : (worldPos (gapOrigin hm hn) (gapStep hm hn) ⟨-1, -1, -1⟩).x.val = 9 := by
  have e1 : (((-1 : ℤ) : Fl (dbl hm hn))).val = ((-1 : ℤ) : ℝ) := Fl.val_int (by norm_num)
  show (dbl hm hn).fl ((dbl hm hn).fl ((((-1 : ℤ) : Fl (dbl hm hn))).val * (1 + 3 / 2 ^ 52)) + ((10 : ℤ) : ℝ)) = _
  have e2 : (dbl hm hn).fl ((((-1 : ℤ) : Fl (dbl hm hn))).val * (1 + 3 / 2 ^ 52)) = -(1 + 3 / 2 ^ 52) := by
    rw [e1]
    have : (((-1 : ℤ) : ℝ) * (1 + 3 / 2 ^ 52)) = -(1 + 3 / 2 ^ 52) := by norm_num
    rw [this]
    exact (dbl hm hn).fl_rep _ ⟨-(2 ^ 52 + 3), -52, by norm_num, by norm_num⟩
  rw [e2]
  have hfl : ∀ x, (dbl hm hn).fl x = flBits 53 r x := fun _ => rfl
  rw [hfl, nearest_eval hn (k := 3) (m := 9 * 2 ^ 49)] <;> norm_num [abs_of_pos, abs_lt]

theorem gap_one {x y : ℝ} {k m : ℤ} (h1 : (2 : ℝ) ^ k ≤ |x|) (h2 : |x| < 2 ^ (k + 1))
    (h3 : |x - m * 2 ^ (k + 1 - (53 : ℕ))| < 2 ^ (k + 1 - (53 : ℕ)) / 2) (hy : y = m * 2 ^ (k + 1 - (53 : ℕ))) :
    (dbl hm hn).fl x = y := by
  have hfl : (dbl hm hn).fl x = flBits 53 r x := rfl
  rw [hfl, nearest_eval hn h1 h2 h3, hy]

/-- The plane `x = 1` of the first chunk is sampled at 11. -/
theorem gap_first : ∀ j : Nat, j ≤ 2 →
    (stepped (worldPos (gapOrigin hm hn) (gapStep hm hn) ⟨-1, -1, -1⟩).x (gapStep hm hn) j).val = 9 + j := by
  intro j hj
  have hs : (gapStep hm hn).val = 1 + 3 / 2 ^ 52 := rfl
  interval_cases j
  · rw [stepped, gap_low]; norm_num
  · rw [stepped, stepped, Fl.val_add, gap_low, hs]
    apply gap_one (k := 3) (m := 10 * 2 ^ 49) <;> norm_num [abs_of_pos, abs_lt]
  · rw [stepped, stepped, stepped, Fl.val_add, Fl.val_add, gap_low, hs]
    have : (dbl hm hn).fl (9 + (1 + 3 / 2 ^ 52)) = 10 := by
      apply gap_one (k := 3) (m := 10 * 2 ^ 49) <;> norm_num [abs_of_pos, abs_lt]
    rw [this]
    apply gap_one (k := 3) (m := 11 * 2 ^ 49) <;> norm_num [abs_of_pos, abs_lt]

/-- Centre of the second chunk. -/
def gapCentre : Vec3 (Fl (dbl hm hn)) := worldPos (gapOrigin hm hn) ((((2 : Nat) : Int) : Fl (dbl hm hn)) * gapStep hm hn) ⟨1, 0, 0⟩

theorem gap_second : (worldPos (gapCentre hm hn) (gapStep hm hn) ⟨-1, -1, -1⟩).x.val = 11 + 8 / 2 ^ 52 := by
  have e1 : (((-1 : ℤ) : Fl (dbl hm hn))).val = ((-1 : ℤ) : ℝ) := Fl.val_int (by norm_num)
  have e3 : (((1 : ℤ) : Fl (dbl hm hn))).val = ((1 : ℤ) : ℝ) := Fl.val_int (by norm_num)
  have e4 : ((((2 : Nat) : Int) : Fl (dbl hm hn))).val = (((2 : Nat) : ℤ) : ℝ) := Fl.val_int (by norm_num)
  have hs : (gapStep hm hn).val = 1 + 3 / 2 ^ 52 := rfl
  have ho : (gapOrigin hm hn).x.val = ((10 : ℤ) : ℝ) := rfl
  have hc : (gapCentre hm hn).x.val = 12 + 8 / 2 ^ 52 := by
    show ((((1 : ℤ) : Fl (dbl hm hn)) * ((((2 : Nat) : Int) : Fl (dbl hm hn)) * gapStep hm hn)) + (gapOrigin hm hn).x).val = _
    rw [Fl.val_add, Fl.val_mul, Fl.val_mul, e3, e4, hs, ho]
    have a1 : (dbl hm hn).fl ((((2 : Nat) : ℤ) : ℝ) * (1 + 3 / 2 ^ 52)) = 2 + 6 / 2 ^ 52 := by
      apply gap_one (k := 1) (m := 2 ^ 52 + 3) <;> norm_num [abs_of_pos, abs_lt]
    have a2 : (dbl hm hn).fl (((1 : ℤ) : ℝ) * (2 + 6 / 2 ^ 52)) = 2 + 6 / 2 ^ 52 := by
      apply gap_one (k := 1) (m := 2 ^ 52 + 3) <;> norm_num [abs_of_pos, abs_lt]
    rw [a1, a2]
    apply gap_one (k := 3) (m := 12 * 2 ^ 49 + 1) <;> norm_num [abs_of_pos, abs_lt]
  show (((-1 : ℤ) : Fl (dbl hm hn)) * gapStep hm hn + (gapCentre hm hn).x).val = _
  rw [Fl.val_add, Fl.val_mul, e1, hs, hc]
  have a1 : (dbl hm hn).fl (((-1 : ℤ) : ℝ) * (1 + 3 / 2 ^ 52)) = -(1 + 3 / 2 ^ 52) := by
    apply gap_one (k := 0) (m := -(2 ^ 52 + 3)) <;> norm_num [abs_of_neg, abs_lt]
  rw [a1]
  apply gap_one (k := 3) (m := 11 * 2 ^ 49 + 1) <;> norm_num [abs_of_pos, abs_lt]

theorem stepped_ge {F : FloatFormat} (a st : Fl F) (h : 0 ≤ st.val) (j : Nat) : a.val ≤ (stepped a st j).val := by
  induction j with
  | zero => exact le_rfl
  | succ j ih =>
    refine ih.trans ?_
    rw [stepped, Fl.val_add]
    have := F.mono (a := (stepped a st j).val) (b := (stepped a st j).val + st.val) (by linarith)
    rwa [F.fl_rep _ (stepped a st j).rep] at this

/-- `y` coordinates of the samples, if the centre of the grid has the `y` coordinate zero. -/
theorem gap_y {o : Vec3 (Fl (dbl hm hn))} (ho : o.y.val = 0) {p : IVec3} (hp : InCube 1 p) :
    (samplePos o (gapStep hm hn) 1 p).y ≤ 0 ↔ p.y ≤ 0 := by
  obtain ⟨-, ⟨y1, y2⟩, -⟩ := hp
  have e1 : (((-1 : ℤ) : Fl (dbl hm hn))).val = ((-1 : ℤ) : ℝ) := Fl.val_int (by norm_num)
  have hs : (gapStep hm hn).val = 1 + 3 / 2 ^ 52 := rfl
  have hlow : (((-1 : ℤ) : Fl (dbl hm hn)) * gapStep hm hn + o.y).val = -(1 + 3 / 2 ^ 52) := by
    rw [Fl.val_add, Fl.val_mul, e1, hs, ho]
    have a1 : (dbl hm hn).fl (((-1 : ℤ) : ℝ) * (1 + 3 / 2 ^ 52)) = -(1 + 3 / 2 ^ 52) := by
      apply gap_one (k := 0) (m := -(2 ^ 52 + 3)) <;> norm_num [abs_of_neg, abs_lt]
    rw [a1, add_zero]
    apply gap_one (k := 0) (m := -(2 ^ 52 + 3)) <;> norm_num [abs_of_neg, abs_lt]
  have hmid : (((-1 : ℤ) : Fl (dbl hm hn)) * gapStep hm hn + o.y + gapStep hm hn).val = 0 := by
    rw [Fl.val_add, hlow, hs]
    have : (-(1 + 3 / 2 ^ 52) + (1 + 3 / 2 ^ 52) : ℝ) = ((0 : ℤ) : ℝ) := by norm_num
    rw [this, Fl.fl_int _ (by norm_num)]; norm_num
  show stepped (((-1 : ℤ) : Fl (dbl hm hn)) * gapStep hm hn + o.y) (gapStep hm hn) (p.y + 1).toNat ≤ 0 ↔ _
  obtain h | h | h : p.y = -1 ∨ p.y = 0 ∨ p.y = 1 := by omega
  · rw [h]
    show ((((-1 : ℤ) : Fl (dbl hm hn)) * gapStep hm hn + o.y).val ≤ (0 : Fl (dbl hm hn)).val) ↔ _
    rw [hlow, Fl.val_zero]; norm_num
  · rw [h]
    show ((((-1 : ℤ) : Fl (dbl hm hn)) * gapStep hm hn + o.y + gapStep hm hn).val ≤ (0 : Fl (dbl hm hn)).val) ↔ _
    rw [hmid, Fl.val_zero]; norm_num
  · rw [h]
    show ((((-1 : ℤ) : Fl (dbl hm hn)) * gapStep hm hn + o.y + gapStep hm hn + gapStep hm hn).val ≤ (0 : Fl (dbl hm hn)).val) ↔ _
    rw [Fl.val_add, hmid, Fl.val_zero, zero_add, (dbl hm hn).fl_rep _ (gapStep hm hn).rep, hs]; norm_num

theorem gap_proper : ProperField (gapField hm hn) := by
  intro q _
  show Material.Stone ≠ .Empty
  decide

theorem gap_value (q : Vec3 (Fl (dbl hm hn))) : (gapField hm hn).value q ≤ 0 ↔
    (dbl hm hn).fl (q.x.val - 11) ≤ 0 ∨ q.y ≤ 0 := by
  show min (q.x - gapNum hm hn 11 (by norm_num)) q.y ≤ 0 ↔ _
  rw [min_le_iff]
  have : (q.x - gapNum hm hn 11 (by norm_num) ≤ 0) ↔ (dbl hm hn).fl (q.x.val - 11) ≤ 0 := by
    rw [Fl.le_iff, Fl.val_sub, Fl.val_zero]
    have : (gapNum hm hn 11 (by norm_num)).val = 11 := by show ((11 : ℤ) : ℝ) = 11; norm_num
    rw [this]
  rw [this]

/-- A chunk of the demonstration, with what the grid says about its points. -/
theorem gap_chunk (sv : ZeroFinder (Fl (dbl hm hn))) (nrm : Vec3 (Fl (dbl hm hn)) → Vec3 (Fl (dbl hm hn))) (c : IVec3) :
    ∃ k : Chunk (Fl (dbl hm hn)), k.coord = c ∧ k.grid.maxCoord = 1 ∧
      k.Computed (gapField hm hn) sv nrm (gapOrigin hm hn) (gapStep hm hn) 2 ∧
      ∀ s : IVec3 → Bool, (∀ p, InCube 1 p → s (chunkPoint 2 c p) = decide ((gapField hm hn).value (samplePos
        (worldPos (gapOrigin hm hn) ((((2 : Nat) : Int) : Fl (dbl hm hn)) * gapStep hm hn) c) (gapStep hm hn) 1 p) ≤ 0)) →
        ChunkOk nrm 2 s k := by
  generalize hpos : worldPos (gapOrigin hm hn) ((((2 : Nat) : Int) : Fl (dbl hm hn)) * gapStep hm hn) c = pos
  obtain ⟨g, hg, hs, hh, hp, ht⟩ : ∃ g : Grid (Fl (dbl hm hn)), Grid.mk' 2 pos (gapStep hm hn) = .ok g ∧ g.size = 2 ∧ g.half = 1 ∧
    g.globalPos = pos ∧ g.step = gapStep hm hn := ⟨_, rfl, rfl, rfl, rfl, rfl⟩
  have hr : g.Reachable := .mk hg
  obtain ⟨g', e, ⟨h1, h2, -, -⟩, hmat⟩ := C73_fill_materials hr (gapField hm hn) sv
  have hF := C07_filled hr (gap_proper hm hn) e
  obtain ⟨w, hres, -⟩ := C15_valid hF nrm
  have hmax : g'.maxCoord = 1 := h2.trans hh
  refine ⟨⟨c, g', w⟩, rfl, hmax, ⟨g, hr, hs, ht, hp.trans hpos.symm, e, hres⟩, ?_⟩
  intro s hsol
  refine ⟨hF, h1.trans hs, ?_, hres⟩
  intro p hin
  dsimp only at hin ⊢
  rw [hmax] at hin
  rw [hsol p hin]
  have hgm : g.maxCoord = 1 := hh
  have hm' := hmat p (by rw [hgm]; exact hin)
  rw [hgm, hp, ht] at hm'
  unfold solidAt
  rw [hm']
  simp only [vertexMaterial_le]
  by_cases hv : (gapField hm hn).value (samplePos pos (gapStep hm hn) 1 p) ≤ 0
  · have := gap_proper hm hn _ hv
    simp [hv, this]
  · simp [hv]

theorem sides15 : (sides (mcTriangles 15)).count (4, 5) ≠ (sides (mcTriangles 15)).count (5, 4) := by decide +kernel
theorem sides255 : sides (mcTriangles 255) = [] := by decide +kernel
theorem face45 : ∀ f < 6, inFace f 4 = true → inFace f 5 = true → f = 0 := by decide +kernel

theorem gapMask (P : IVec3) (hP : P.y = 0) : latMask (fun p => decide (p.y ≤ 0)) P = 15 := by
  unfold latMask
  have : (fun i => (fun p : IVec3 => decide (p.y ≤ 0)) (shift P (cornerPos i).x (cornerPos i).y (cornerPos i).z)) =
      fun i => decide ((cornerPos i).y ≤ 0) := by
    funext i
    simp only [shift, hP, zero_add]
  rw [this]
  decide +kernel

theorem fullMask (P : IVec3) : latMask (fun _ => true) P = 255 := by
  show maskOf (fun _ => true) 8 = 255
  decide +kernel

/-- C76, the limit of it.  With `double` arithmetic, rounded to nearest in any way, neighbouring chunks may sample their common
plane at different places, and their meshes need not fit: for chunks of two cells per side with step 1 + 3 / 2^52 around x = 10 there
is a field such that some side of a triangle on the common plane is not matched, although all the cells around it are covered. -/
theorem C76_rounding_gap (sv : ZeroFinder (Fl (dbl hm hn))) (nrm : Vec3 (Fl (dbl hm hn)) → Vec3 (Fl (dbl hm hn))) :
    ∃ (f : ScalarField (Fl (dbl hm hn))) (origin : Vec3 (Fl (dbl hm hn))) (step : Fl (dbl hm hn)) (chunks : List (Chunk (Fl (dbl hm hn)))),
      ProperField f ∧ (∀ k ∈ chunks, k.Computed f sv nrm origin step 2) ∧ (chunks.map Chunk.coord).Nodup ∧
      ∃ E F : LEdge, (chunks.flatMap fun k => k.worldSides 2).count (E, F) ≠ (chunks.flatMap fun k => k.worldSides 2).count (F, E) ∧
        ∀ P, E.InCell P → F.InCell P → CellCovered 2 chunks P := by
  obtain ⟨k, hc, hmax, hk, hok⟩ := gap_chunk hm hn sv nrm ⟨0, 0, 0⟩
  obtain ⟨k', hc', hmax', hk', hok'⟩ := gap_chunk hm hn sv nrm ⟨1, 0, 0⟩
  have hint : ∀ n : ℤ, |n| ≤ 2 ^ 24 → ((n : Fl (dbl hm hn))).val = n := fun n h => Fl.val_int h
  have ok : ChunkOk nrm 2 (fun _ => true) k := by
    apply hok
    intro p hp
    symm
    rw [decide_eq_true_eq, gap_value]
    left
    have hcen : (worldPos (gapOrigin hm hn) ((((2 : Nat) : Int) : Fl (dbl hm hn)) * gapStep hm hn) ⟨0, 0, 0⟩).x = (gapOrigin hm hn).x := by
      apply Fl.ext
      show ((((0 : ℤ) : Fl (dbl hm hn)) * ((((2 : Nat) : Int) : Fl (dbl hm hn)) * gapStep hm hn)) + (gapOrigin hm hn).x).val = _
      rw [Fl.val_add, Fl.val_mul, hint 0 (by norm_num)]
      have : (dbl hm hn).fl (((0 : ℤ) : ℝ) * ((((2 : Nat) : Int) : Fl (dbl hm hn)) * gapStep hm hn).val) = 0 := by
        have := Fl.fl_int (dbl hm hn) (n := 0) (by norm_num)
        simpa using this
      rw [this, zero_add, (dbl hm hn).fl_rep _ (gapOrigin hm hn).x.rep]
    have hx : ((samplePos (worldPos (gapOrigin hm hn) ((((2 : Nat) : Int) : Fl (dbl hm hn)) * gapStep hm hn) ⟨0, 0, 0⟩)
        (gapStep hm hn) 1 p).x).val = 9 + ((p.x + 1).toNat : ℝ) := by
      show (stepped (((-1 : ℤ) : Fl (dbl hm hn)) * gapStep hm hn + (worldPos (gapOrigin hm hn)
        ((((2 : Nat) : Int) : Fl (dbl hm hn)) * gapStep hm hn) ⟨0, 0, 0⟩).x) (gapStep hm hn) (p.x + 1).toNat).val = _
      rw [hcen]
      exact gap_first hm hn _ (by have := hp.1; omega)
    rw [hx]
    have hle : (9 + ((p.x + 1).toNat : ℝ) - 11) ≤ ((0 : ℤ) : ℝ) := by
      have : (p.x + 1).toNat ≤ 2 := by have := hp.1; omega
      have : ((p.x + 1).toNat : ℝ) ≤ 2 := by exact_mod_cast this
      norm_num
      linarith
    have := (dbl hm hn).mono hle
    rwa [Fl.fl_int _ (by norm_num), Int.cast_zero] at this
  have ok' : ChunkOk nrm 2 (fun p => decide (p.y ≤ 0)) k' := by
    apply hok'
    intro p hp
    rw [decide_eq_decide, gap_value]
    have hy0 : (gapCentre hm hn).y.val = 0 := by
      show ((((0 : ℤ) : Fl (dbl hm hn)) * ((((2 : Nat) : Int) : Fl (dbl hm hn)) * gapStep hm hn)) + (0 : Fl (dbl hm hn))).val = _
      rw [Fl.val_add, Fl.val_mul, hint 0 (by norm_num), Fl.val_zero]
      have := Fl.fl_int (dbl hm hn) (n := 0) (by norm_num)
      simp only [Int.cast_zero] at this
      simp [this]
    have hy := gap_y hm hn hy0 hp
    have hchunk : (chunkPoint 2 ⟨1, 0, 0⟩ p).y = p.y := by simp [chunkPoint, shift]
    rw [hchunk, ← hy]
    have hx : ¬ (dbl hm hn).fl ((samplePos (gapCentre hm hn) (gapStep hm hn) 1 p).x.val - 11) ≤ 0 := by
      rw [not_le]
      have h1 : 11 + 8 / 2 ^ 52 ≤ (samplePos (gapCentre hm hn) (gapStep hm hn) 1 p).x.val := by
        rw [← gap_second hm hn]
        exact stepped_ge _ _ (by show (0 : ℝ) ≤ 1 + 3 / 2 ^ 52; norm_num) _
      have h2 : (8 / 2 ^ 52 : ℝ) ≤ (samplePos (gapCentre hm hn) (gapStep hm hn) 1 p).x.val - 11 := by linarith
      have h3 := (dbl hm hn).mono h2
      have h4 : (dbl hm hn).fl (8 / 2 ^ 52) = 8 / 2 ^ 52 := (dbl hm hn).fl_rep _ ⟨8, -52, by norm_num, by norm_num⟩
      rw [h4] at h3
      exact lt_of_lt_of_le (by norm_num) h3
    constructor
    · exact fun h => Or.inr h
    · rintro (h | h)
      · exact absurd h hx
      · exact h
  refine ⟨gapField hm hn, gapOrigin hm hn, gapStep hm hn, [k, k'], gap_proper hm hn, ?_, by simp [hc, hc'],
    slotEdge ⟨1, 0, 0⟩ 4, slotEdge ⟨1, 0, 0⟩ 5, ?_, ?_⟩
  · intro x hx
    rcases List.mem_pair.1 hx with rfl | rfl
    · exact hk
    · exact hk'
  · have hnil : k.worldSides 2 = [] := by
      rw [worldSides_eq ok, List.flatMap_eq_nil_iff]
      intro P _
      unfold latSides
      rw [fullMask, sides255]; rfl
    have hcells : ∀ R, R ∈ worldCells 2 [k'] → R.x ≠ 0 := by
      intro R hR
      unfold worldCells at hR
      rw [List.flatMap_singleton] at hR
      obtain ⟨Q, hQ, rfl⟩ := List.mem_map.1 hR
      have hQ' := ((mem_mcCells ok'.filled).1 hQ).1
      rw [hmax', cellIn_iff] at hQ'
      rw [hc']
      simp only [chunkPoint, shift]
      omega
    have hall : ∀ x ∈ [k'], ChunkOk nrm 2 (fun p => decide (p.y ≤ 0)) x := by
      intro x hx; rw [List.mem_singleton.1 hx]; exact ok'
    have hnd := worldCells_nodup (n := 2) hall (by simp)
    have hT : [k, k'].flatMap (fun k => k.worldSides 2) = (worldCells 2 [k']).flatMap (latSides fun p => decide (p.y ≤ 0)) := by
      rw [← worldSides_all hall]
      simp [hnil]
    have hm0 : latMask (fun p => decide (p.y ≤ 0)) ⟨1, 0, 0⟩ = 15 := gapMask _ rfl
    have hQ0 : (⟨1, 0, 0⟩ : IVec3) ∈ worldCells 2 [k'] := by
      unfold worldCells
      rw [List.flatMap_singleton]
      refine List.mem_map.2 ⟨⟨-1, 0, 0⟩, ?_, by rw [hc']; rfl⟩
      by_contra hno
      have hin : CellIn k'.grid.maxCoord ⟨-1, 0, 0⟩ := by rw [hmax']; rw [cellIn_iff]; decide
      have h0 := no_sides ok' hin hno
      rw [hc'] at h0
      have hpt : chunkPoint 2 ⟨1, 0, 0⟩ ⟨-1, 0, 0⟩ = ⟨1, 0, 0⟩ := rfl
      rw [hpt] at h0
      unfold latSides at h0
      rw [hm0, List.map_eq_nil_iff] at h0
      exact absurd h0 (by decide +kernel)
    have hcnt : ∀ X Y, ((X = slotEdge ⟨1, 0, 0⟩ 4 ∧ Y = slotEdge ⟨1, 0, 0⟩ 5) ∨ (X = slotEdge ⟨1, 0, 0⟩ 5 ∧ Y = slotEdge ⟨1, 0, 0⟩ 4)) →
        ((worldCells 2 [k']).flatMap (latSides fun p => decide (p.y ≤ 0))).count (X, Y) =
        (latSides (fun p => decide (p.y ≤ 0)) ⟨1, 0, 0⟩).count (X, Y) := by
      intro X Y hXY
      rw [List.count_flatMap]
      have hfar : acrossFace ⟨1, 0, 0⟩ 0 ≠ ⟨1, 0, 0⟩ := acrossFace_ne _ _
      have hno : acrossFace ⟨1, 0, 0⟩ 0 ∉ worldCells 2 [k'] := by
        intro h
        exact hcells _ h (by decide)
      have hz : ∀ R ∈ worldCells 2 [k'], R ≠ ⟨1, 0, 0⟩ → R ≠ acrossFace ⟨1, 0, 0⟩ 0 →
          (List.count (X, Y) ∘ latSides fun p => decide (p.y ≤ 0)) R = 0 := by
        intro R hR n1 n2
        by_contra hne
        have hmem := List.count_pos_iff.1 (Nat.pos_of_ne_zero hne)
        obtain ⟨i, hi, j, hj, -, -, a, b⟩ := latSides_slots hmem
        have hex : ∃ i' < 12, ∃ j' < 12, slotEdge R i' = slotEdge ⟨1, 0, 0⟩ 4 ∧ slotEdge R j' = slotEdge ⟨1, 0, 0⟩ 5 := by
          rcases hXY with ⟨rfl, rfl⟩ | ⟨rfl, rfl⟩
          · exact ⟨i, hi, j, hj, a, b⟩
          · exact ⟨j, hj, i, hi, b, a⟩
        obtain ⟨i', hi', j', hj', a', b'⟩ := hex
        rcases same_edges (by norm_num) (by norm_num) hi' hj' (by norm_num) a'.symm b'.symm with e | ⟨f, hf, f1, f2, e⟩
        · exact n1 e
        · rw [face45 f hf f1 f2] at e
          exact n2 e
      rw [sum_two _ hnd _ ⟨1, 0, 0⟩ (acrossFace ⟨1, 0, 0⟩ 0) hfar.symm hz, if_pos hQ0, if_neg hno]
      rfl
    rw [hT, hcnt _ _ (Or.inl ⟨rfl, rfl⟩), hcnt _ _ (Or.inr ⟨rfl, rfl⟩), latSides_count (by norm_num) (by norm_num),
      latSides_count (by norm_num) (by norm_num), hm0]
    exact sides15
  · intro P h1 h2
    have a := h1 ⟨1, 0, 0⟩ (by decide)
    have b := h2 ⟨1, 0, 1⟩ (by decide)
    have c := h1 ⟨1, 1, 0⟩ (by decide)
    have hP : (P = ⟨0, 0, 0⟩ ∨ P = ⟨1, 0, 0⟩) := by
      obtain ⟨x, y, z⟩ := P
      simp only [cellVertices, shift, List.mem_cons, List.not_mem_nil, or_false, IVec3.mk.injEq] at a b c ⊢
      omega
    rcases hP with rfl | rfl
    · refine ⟨k, by simp, ⟨0, 0, 0⟩, ?_, by rw [hc]; rfl⟩
      rw [hmax, cellIn_iff]; decide
    · refine ⟨k', by simp, ⟨-1, 0, 0⟩, ?_, by rw [hc']; rfl⟩
      rw [hmax', cellIn_iff]; decide

/-- The case of `double` with halves rounded up. -/
example := C76_rounding_gap round_mono' round_near

end Gap

end

end Isomesh
