import Verif.Model.MeshField
import Verif.Props.TriangleOctree
import Verif.Props.Mesh
import Mathlib.Tactic.IntervalCases

/-! Property C64: the scalar field of a mesh. -/

namespace Isomesh

noncomputable section
open scoped Classical

/-- A PLY file with complete buffers and valid vertex indices, and at least one triangle. -/
structure PlyFile.Sound (f : PlyFile ℝ) : Prop where
  complete : f.Complete
  faces : f.fdata.length = 3 * f.fcount
  indices : ∀ i ∈ f.fdata, i < f.vcount
  some_face : 0 < f.fcount

/-- `v` is the `i`-th vertex of the file in the coordinates of the field: centred and scaled as `PlyData` does. -/
def PlyFile.FieldVertex (fltMax fltMin : ℝ) (f : PlyFile ℝ) (i : Nat) (v : Vec3 ℝ) : Prop :=
  ∃ c k p, normalization fltMax fltMin f = some (c, k) ∧ f.Raw i p ∧ i < f.vcount ∧
    v = ⟨(p.x - c.x) / k, (p.y - c.y) / k, (p.z - c.z) / k⟩

/-- `T` is the `i`-th triangle of the mesh in the coordinates of the field; `reverse` swaps two corners. -/
def PlyFile.FieldTri (fltMax fltMin : ℝ) (f : PlyFile ℝ) (reverse : Bool) (i : Nat) (T : Tri) : Prop :=
  ∃ i1 i2 i3 a b c, f.fdata[3 * i]? = some i1 ∧ f.fdata[3 * i + 1]? = some i2 ∧ f.fdata[3 * i + 2]? = some i3 ∧
    f.FieldVertex fltMax fltMin i1 a ∧ f.FieldVertex fltMax fltMin i2 b ∧ f.FieldVertex fltMax fltMin i3 c ∧
    T = if reverse then Tri.make a c b else Tri.make a b c

/-- The triangles of the mesh. -/
def PlyFile.FieldTris (fltMax fltMin : ℝ) (f : PlyFile ℝ) (reverse : Bool) (l : List Tri) : Prop :=
  l.length = f.fcount ∧ ∀ i T, l[i]? = some T → f.FieldTri fltMax fltMin reverse i T

/-- The root box is not larger than needed: if all vertex coordinates are in `[lo, hi]`, with `hi` at least the start value of
the maximum search, then the corner is in that range and the side is at most `hi - lo`. -/
def PlyFile.TightBox (fltMax fltMin : ℝ) (f : PlyFile ℝ) (pos : Vec3 ℝ) (half : ℝ) : Prop :=
  ∀ lo hi : ℝ, lo ≤ fltMax → fltMin ≤ hi →
    (∀ i v, f.FieldVertex fltMax fltMin i v → (lo ≤ v.x ∧ v.x ≤ hi) ∧ (lo ≤ v.y ∧ v.y ≤ hi) ∧ (lo ≤ v.z ∧ v.z ≤ hi)) →
    (lo ≤ pos.x ∧ pos.x ≤ hi) ∧ (lo ≤ pos.y ∧ pos.y ≤ hi) ∧ (lo ≤ pos.z ∧ pos.z ≤ hi) ∧ 2 * half ≤ hi - lo

theorem fieldVertex_iff {fltMax fltMin : ℝ} {f : PlyFile ℝ} {c : Vec3 ℝ} {k : ℝ} (hn : normalization fltMax fltMin f = some (c, k))
    (direct : Bool) {i : Nat} (hi : i < f.vcount) {v : Vec3 ℝ} :
    (⟨direct, f, c, k⟩ : PlyData ℝ).vertex i = some v ↔ f.FieldVertex fltMax fltMin i v := by
  unfold PlyData.vertex PlyFile.FieldVertex PlyFile.Raw
  constructor
  · intro h
    simp only [Option.bind_eq_bind, Option.bind_eq_some_iff] at h
    obtain ⟨x, hx, y, hy, z, hz, h⟩ := h
    exact ⟨c, k, ⟨x, y, z⟩, hn, ⟨hx, hy, hz⟩, hi, (Option.some.inj h).symm⟩
  · rintro ⟨c', k', p, hn', ⟨h1, h2, h3⟩, _, rfl⟩
    rw [hn] at hn'
    cases hn'
    dsimp only
    rw [h1, h2, h3]
    rfl

theorem box_fold {fltMax fltMin : ℝ} (d : PlyData ℝ) (vs : List (Vec3 ℝ)) (hl : vs.length = d.verticesCount)
    (hv : ∀ (i : Nat) v, vs[i]? = some v → d.vertex i = some v) :
    meshFieldBox fltMax fltMin d = some ((vs.map Vec3.x).foldl minMaxStep (fltMax, fltMin), (vs.map Vec3.y).foldl minMaxStep (fltMax, fltMin),
      (vs.map Vec3.z).foldl minMaxStep (fltMax, fltMin)) := by
  unfold meshFieldBox
  rw [← hl]
  have gen : ∀ n ≤ vs.length, ∀ s : (ℝ × ℝ) × (ℝ × ℝ) × (ℝ × ℝ), (List.range n).foldlM
      (fun (s : (ℝ × ℝ) × (ℝ × ℝ) × (ℝ × ℝ)) (i : Nat) => do
        let p ← d.vertex i
        some (minMaxStep s.1 p.x, minMaxStep s.2.1 p.y, minMaxStep s.2.2 p.z)) s =
      some (((vs.take n).map Vec3.x).foldl minMaxStep s.1, ((vs.take n).map Vec3.y).foldl minMaxStep s.2.1,
        ((vs.take n).map Vec3.z).foldl minMaxStep s.2.2) := by
    intro n
    induction n with
    | zero => intro _ s; rfl
    | succ n ih =>
      intro hn s
      rw [List.range_succ, List.foldlM_append, ih (by omega) s]
      have hget : vs[n]? = some vs[n] := List.getElem?_eq_getElem (by omega)
      have := hv n _ hget
      have ht : vs.take (n + 1) = vs.take n ++ [vs[n]] := by rw [List.take_add_one, hget]; rfl
      rw [ht]
      simp only [List.map_append, List.foldl_append, List.map_cons, List.map_nil, List.foldl_cons, List.foldl_nil, List.foldlM_cons,
        List.foldlM_nil, this, Option.bind_eq_bind, Option.bind_some, bind_pure]
  rw [gen vs.length le_rfl, List.take_length]

/-- The steps of `load`. -/
theorem load_parts (fltMax fltMin : ℝ) (f : PlyFile ℝ) (hf : f.Sound) (reverse : Bool) (mf0 : MeshField) :
    ∃ half pos l root, f.FieldTris fltMax fltMin reverse l ∧ TriTree.build half pos l = some root ∧ 0 ≤ half ∧
      root.halfSize = some half ∧
      (∀ i v, f.FieldVertex fltMax fltMin i v → InBox pos half v) ∧ f.TightBox fltMax fltMin pos half ∧
      MeshField.load fltMax fltMin f reverse mf0 = some ⟨some root⟩ ∧
      ∃ d0 d minX maxX minY maxY minZ maxZ, PlyData.load fltMax fltMin f = some d0 ∧
        (if reverse then d0.setWindingOrder false else d0) = d ∧ meshFieldBox fltMax fltMin d = some ((minX, maxX), (minY, maxY), (minZ, maxZ)) ∧
        half = max (maxX - minX) (max (maxY - minY) (maxZ - minZ)) / 2 ∧ pos = ⟨minX, minY, minZ⟩ ∧ d.trianglesCount = l.length ∧
        ∀ i T, l[i]? = some T → ∃ t, d.triangle i = some t ∧ T = Tri.make t.1 t.2.1 t.2.2 := by
  obtain ⟨lo, hi, hnorm, -⟩ := normalization_spec fltMax fltMin f hf.complete
  generalize hc : (⟨(hi .X + lo .X) / 2, (hi .Y + lo .Y) / 2, (hi .Z + lo .Z) / 2⟩ : Vec3 ℝ) = c at hnorm
  generalize hk : max (hi .X - lo .X) (max (hi .Y - lo .Y) (hi .Z - lo .Z)) / 32 = k at hnorm
  have hld : PlyData.load fltMax fltMin f = some ⟨true, f, c, k⟩ := by
    unfold PlyData.load; rw [hnorm]; rfl
  have hD : (if reverse = true then (⟨true, f, c, k⟩ : PlyData ℝ).setWindingOrder false else ⟨true, f, c, k⟩) =
      ⟨!reverse, f, c, k⟩ := by cases reverse <;> rfl
  set d : PlyData ℝ := ⟨!reverse, f, c, k⟩ with hd
  have hvert : ∀ i < f.vcount, ∃ v, d.vertex i = some v := by
    intro i hi
    obtain ⟨p, hp⟩ := hf.complete.raw hi
    exact ⟨_, (fieldVertex_iff hnorm _ hi).mpr ⟨c, k, p, hnorm, hp, hi, rfl⟩⟩
  -- vertex list
  obtain ⟨vs, hvl, hvs⟩ : ∃ vs : List (Vec3 ℝ), vs.length = f.vcount ∧ ∀ (i : Nat) v, vs[i]? = some v → d.vertex i = some v := by
    have gen : ∀ n ≤ f.vcount, ∃ vs : List (Vec3 ℝ), vs.length = n ∧ ∀ (i : Nat) v, vs[i]? = some v → d.vertex i = some v := by
      intro n
      induction n with
      | zero => intro _; exact ⟨[], rfl, by simp⟩
      | succ n ih =>
        intro hn
        obtain ⟨vs, hl, hv⟩ := ih (by omega)
        obtain ⟨v, hv'⟩ := hvert n (by omega)
        refine ⟨vs ++ [v], by simp [hl], ?_⟩
        intro i w hw
        by_cases h : i < n
        · rw [List.getElem?_append_left (by omega)] at hw; exact hv i w hw
        · have : i = n := by
            have := (List.getElem?_eq_some_iff.mp hw).1
            simp at this; omega
          subst this
          rw [← hl, List.getElem?_concat_length] at hw
          cases hw
          exact hv'
    exact gen f.vcount le_rfl
  have hbox := box_fold (fltMax := fltMax) (fltMin := fltMin) d vs hvl hvs
  obtain ⟨x1, -, -, x2, x3⟩ := minMax_spec fltMax fltMin (vs.map Vec3.x)
  obtain ⟨y1, -, -, y2, y3⟩ := minMax_spec fltMax fltMin (vs.map Vec3.y)
  obtain ⟨z1, -, -, z2, z3⟩ := minMax_spec fltMax fltMin (vs.map Vec3.z)
  generalize (vs.map Vec3.x).foldl minMaxStep (fltMax, fltMin) = bx at *
  generalize (vs.map Vec3.y).foldl minMaxStep (fltMax, fltMin) = by' at *
  generalize (vs.map Vec3.z).foldl minMaxStep (fltMax, fltMin) = bz at *
  obtain ⟨minX, maxX⟩ := bx
  obtain ⟨minY, maxY⟩ := by'
  obtain ⟨minZ, maxZ⟩ := bz
  dsimp only at x1 y1 z1 x2 y2 z2 x3 y3 z3
  -- triangles
  have htri : ∀ i < f.fcount, ∃ t, d.triangle i = some t ∧ f.FieldTri fltMax fltMin reverse i (Tri.make t.1 t.2.1 t.2.2) := by
    intro i hi
    have g0 : 3 * i < f.fdata.length := by rw [hf.faces]; omega
    have g1 : 3 * i + 1 < f.fdata.length := by rw [hf.faces]; omega
    have g2 : 3 * i + 2 < f.fdata.length := by rw [hf.faces]; omega
    have e0 : f.fdata[3 * i]? = some f.fdata[3 * i] := List.getElem?_eq_getElem g0
    have e1 : f.fdata[3 * i + 1]? = some f.fdata[3 * i + 1] := List.getElem?_eq_getElem g1
    have e2 : f.fdata[3 * i + 2]? = some f.fdata[3 * i + 2] := List.getElem?_eq_getElem g2
    have l0 := hf.indices _ (List.getElem_mem g0)
    have l1 := hf.indices _ (List.getElem_mem g1)
    have l2 := hf.indices _ (List.getElem_mem g2)
    obtain ⟨a, ha⟩ := hvert _ l0
    obtain ⟨b, hb⟩ := hvert _ l1
    obtain ⟨c', hc'⟩ := hvert _ l2
    have ka := (fieldVertex_iff hnorm _ l0).mp ha
    have kb := (fieldVertex_iff hnorm _ l1).mp hb
    have kc := (fieldVertex_iff hnorm _ l2).mp hc'
    cases hr : reverse with
    | false =>
      refine ⟨(a, b, c'), ?_, ⟨_, _, _, a, b, c', e0, e1, e2, ka, kb, kc, rfl⟩⟩
      have : d.triangleIndexs i = some (f.fdata[3 * i], f.fdata[3 * i + 1], f.fdata[3 * i + 2]) := by
        unfold PlyData.triangleIndexs
        rw [hd, hr]; dsimp only; rw [e0, e1, e2]; rfl
      unfold PlyData.triangle
      rw [this]
      simp only [Option.bind_eq_bind, Option.bind_some, ha, hb, hc']
    | true =>
      refine ⟨(a, c', b), ?_, ⟨_, _, _, a, b, c', e0, e1, e2, ka, kb, kc, rfl⟩⟩
      have : d.triangleIndexs i = some (f.fdata[3 * i], f.fdata[3 * i + 2], f.fdata[3 * i + 1]) := by
        unfold PlyData.triangleIndexs
        rw [hd, hr]; dsimp only; rw [e0, e1, e2]; rfl
      unfold PlyData.triangle
      rw [this]
      simp only [Option.bind_eq_bind, Option.bind_some, ha, hb, hc']
  set half := max (maxX - minX) (max (maxY - minY) (maxZ - minZ)) / 2 with hhalf
  -- insertion loop
  have hins : ∀ n ≤ f.fcount, ∃ l : List Tri, l.length = n ∧ (∀ (i : Nat) T, l[i]? = some T → f.FieldTri fltMax fltMin reverse i T ∧ ∃ t, d.triangle i = some t ∧ T = Tri.make t.1 t.2.1 t.2.2) ∧
      (List.range n).foldlM (fun (root : TriTree) (i : Nat) => (do
        let t ← d.triangle i
        root.insert (Tri.make t.1 t.2.1 t.2.2) : Option TriTree)) (TriTree.new half 0 ⟨minX, minY, minZ⟩)
      = TriTree.build half ⟨minX, minY, minZ⟩ l := by
    intro n
    induction n with
    | zero => intro _; exact ⟨[], rfl, by simp, rfl⟩
    | succ n ih =>
      intro hn
      obtain ⟨l, hl, ht, he⟩ := ih (by omega)
      obtain ⟨t, ht', hft⟩ := htri n (by omega)
      refine ⟨l ++ [Tri.make t.1 t.2.1 t.2.2], by simp [hl], ?_, ?_⟩
      · intro i T hT
        by_cases h : i < n
        · rw [List.getElem?_append_left (by omega)] at hT; exact ht i T hT
        · have : i = n := by
            have := (List.getElem?_eq_some_iff.mp hT).1
            simp at this; omega
          subst this
          rw [← hl, List.getElem?_concat_length] at hT
          cases hT
          exact ⟨hft, t, ht', rfl⟩
      · rw [List.range_succ, List.foldlM_append, he, build_snoc]
        congr 1
        funext root
        simp [ht']
  obtain ⟨l, hl, hlt, hfold⟩ := hins f.fcount le_rfl
  obtain ⟨root, hroot, hne, hbx⟩ := triBuild_ok half ⟨minX, minY, minZ⟩ l
  have hv0 : 0 < f.vcount := by
    have : 0 < f.fdata.length := by rw [hf.faces]; have := hf.some_face; omega
    have := hf.indices _ (List.getElem_mem this)
    omega
  obtain ⟨v0, hv0'⟩ := hvert 0 hv0
  have hmem : ∀ i v, f.FieldVertex fltMax fltMin i v → v ∈ vs := by
    intro i v hv
    have hi : i < f.vcount := by obtain ⟨_, _, _, _, _, h, _⟩ := hv; exact h
    have h1 := (fieldVertex_iff hnorm (!reverse) hi).mpr hv
    have h2 : vs[i]? = some vs[i] := List.getElem?_eq_getElem (by omega)
    have h3 := hvs i _ h2
    rw [h1] at h3
    rw [Option.some.inj h3]
    exact List.getElem_mem _
  have hX : maxX - minX ≤ 2 * half := by rw [hhalf]; linarith [le_max_left (maxX - minX) (max (maxY - minY) (maxZ - minZ))]
  have hY : maxY - minY ≤ 2 * half := by
    rw [hhalf]; linarith [le_max_right (maxX - minX) (max (maxY - minY) (maxZ - minZ)), le_max_left (maxY - minY) (maxZ - minZ)]
  have hZ : maxZ - minZ ≤ 2 * half := by
    rw [hhalf]; linarith [le_max_right (maxX - minX) (max (maxY - minY) (maxZ - minZ)), le_max_right (maxY - minY) (maxZ - minZ)]
  have hboxv : ∀ v ∈ vs, InBox ⟨minX, minY, minZ⟩ half v := by
    intro v hv
    have a := x1 v.x (List.mem_map_of_mem hv)
    have b := y1 v.y (List.mem_map_of_mem hv)
    have c := z1 v.z (List.mem_map_of_mem hv)
    unfold InBox
    dsimp only
    refine ⟨⟨a.1, ?_⟩, ⟨b.1, ?_⟩, c.1, ?_⟩ <;> linarith
  have h0 : 0 ≤ half := by
    have := hboxv v0 (hmem 0 v0 ((fieldVertex_iff hnorm _ hv0).mp hv0'))
    unfold InBox at this
    dsimp only at this
    linarith [this.1.1, this.1.2]
  refine ⟨half, ⟨minX, minY, minZ⟩, l, root, ⟨hl, fun i T hT => (hlt i T hT).1⟩, hroot, h0, ?_, fun i v hv => hboxv v (hmem i v hv), ?_, ?_,
    ⟨true, f, c, k⟩, d, minX, maxX, minY, maxY, minZ, maxZ, hld, hD, hbox, hhalf, rfl, hl.symm, fun i T hT => (hlt i T hT).2⟩
  · cases root with
    | null => exact absurd rfl hne
    | leaf a b c d => rw [TriTree.halfSize, hbx.2.1]
    | inner a b c d => rw [TriTree.halfSize, hbx.2.1]
  · intro lo hi hlo hhi hr
    have hall : ∀ v ∈ vs, (lo ≤ v.x ∧ v.x ≤ hi) ∧ (lo ≤ v.y ∧ v.y ≤ hi) ∧ (lo ≤ v.z ∧ v.z ≤ hi) := by
      intro v hv
      obtain ⟨i, hi'⟩ := List.mem_iff_getElem?.mp hv
      have hlt : i < f.vcount := by rw [← hvl]; exact (List.getElem?_eq_some_iff.mp hi').1
      exact hr i v ((fieldVertex_iff hnorm _ hlt).mp (hvs i v hi'))
    have hv0m := hmem 0 v0 ((fieldVertex_iff hnorm _ hv0).mp hv0')
    have bx := hall v0 hv0m
    have gx : lo ≤ minX ∧ maxX ≤ hi := by
      constructor
      · rcases x2 with h | h
        · rw [h]; exact hlo
        · obtain ⟨v, hv, rfl⟩ := List.mem_map.mp h; exact (hall v hv).1.1
      · rcases x3 with h | h
        · rw [h]; exact hhi
        · obtain ⟨v, hv, rfl⟩ := List.mem_map.mp h; exact (hall v hv).1.2
    have gy : lo ≤ minY ∧ maxY ≤ hi := by
      constructor
      · rcases y2 with h | h
        · rw [h]; exact hlo
        · obtain ⟨v, hv, rfl⟩ := List.mem_map.mp h; exact (hall v hv).2.1.1
      · rcases y3 with h | h
        · rw [h]; exact hhi
        · obtain ⟨v, hv, rfl⟩ := List.mem_map.mp h; exact (hall v hv).2.1.2
    have gz : lo ≤ minZ ∧ maxZ ≤ hi := by
      constructor
      · rcases z2 with h | h
        · rw [h]; exact hlo
        · obtain ⟨v, hv, rfl⟩ := List.mem_map.mp h; exact (hall v hv).2.2.1
      · rcases z3 with h | h
        · rw [h]; exact hhi
        · obtain ⟨v, hv, rfl⟩ := List.mem_map.mp h; exact (hall v hv).2.2.2
    have ax := x1 v0.x (List.mem_map_of_mem hv0m)
    have ay := y1 v0.y (List.mem_map_of_mem hv0m)
    have az := z1 v0.z (List.mem_map_of_mem hv0m)
    dsimp only
    refine ⟨⟨gx.1, by linarith⟩, ⟨gy.1, by linarith⟩, ⟨gz.1, by linarith⟩, ?_⟩
    rw [hhalf]
    have : max (maxX - minX) (max (maxY - minY) (maxZ - minZ)) ≤ hi - lo :=
      max_le (by linarith) (max_le (by linarith) (by linarith))
    linarith
  · unfold MeshField.load
    rw [hld]
    simp only [Option.bind_eq_bind, Option.bind_some, hD]
    rw [hbox]
    simp only [Option.bind_some]
    have hcount : d.trianglesCount = f.fcount := rfl
    rw [hcount]
    have := hfold.trans hroot
    simp only [Option.bind_eq_bind] at this
    rw [← hhalf, this]
    rfl

/-- C64: loading a sound file succeeds; the tree is that of all the triangles of the mesh, inserted in order, and its root
box contains all the vertices. -/
theorem C64_load (fltMax fltMin : ℝ) (f : PlyFile ℝ) (hf : f.Sound) (reverse : Bool) (mf0 : MeshField) :
    ∃ half pos l root, f.FieldTris fltMax fltMin reverse l ∧ TriTree.build half pos l = some root ∧ 0 ≤ half ∧
      root.halfSize = some half ∧
      (∀ i v, f.FieldVertex fltMax fltMin i v → InBox pos half v) ∧ f.TightBox fltMax fltMin pos half ∧
      MeshField.load fltMax fltMin f reverse mf0 = some ⟨some root⟩ := by
  obtain ⟨half, pos, l, root, h1, h2, h3, h4, h5, h6, h7, -⟩ := load_parts fltMax fltMin f hf reverse mf0
  exact ⟨half, pos, l, root, h1, h2, h3, h4, h5, h6, h7⟩

/-! ### Values -/

/-- The least squared distance from `p` to the triangles of a list is attained at `K`. -/
def NearestOn (l : List Tri) (p K : Vec3 ℝ) : Prop := (∃ T ∈ l, T.Mem K) ∧ ∀ T ∈ l, ∀ q, T.Mem q → sqDist p K ≤ sqDist p q

theorem convex_bound {lo hi a b c s t : ℝ} (hs : 0 ≤ s) (ht : 0 ≤ t) (hst : s + t ≤ 1) (ha : lo ≤ a ∧ a ≤ hi) (hb : lo ≤ b ∧ b ≤ hi)
    (hc : lo ≤ c ∧ c ≤ hi) : lo ≤ a + s * (b - a) + t * (c - a) ∧ a + s * (b - a) + t * (c - a) ≤ hi := by
  have h1 : 0 ≤ 1 - s - t := by linarith
  have e : a + s * (b - a) + t * (c - a) = (1 - s - t) * a + s * b + t * c := by ring
  rw [e]
  constructor
  · have e2 : lo = (1 - s - t) * lo + s * lo + t * lo := by ring
    have := mul_le_mul_of_nonneg_left ha.1 h1
    have := mul_le_mul_of_nonneg_left hb.1 hs
    have := mul_le_mul_of_nonneg_left hc.1 ht
    linarith
  · have e2 : hi = (1 - s - t) * hi + s * hi + t * hi := by ring
    have := mul_le_mul_of_nonneg_left ha.2 h1
    have := mul_le_mul_of_nonneg_left hb.2 hs
    have := mul_le_mul_of_nonneg_left hc.2 ht
    linarith

theorem mem_box {pos : Vec3 ℝ} {half : ℝ} {T : Tri} (h : ∀ q, T.Corner q → InBox pos half q) {q : Vec3 ℝ} (hq : T.Mem q) : InBox pos half q := by
  obtain ⟨s, t, hs, ht, hst, rfl⟩ := hq
  have ha := h T.a (Or.inl rfl)
  have hb := h T.b (Or.inr (Or.inl rfl))
  have hc := h T.c (Or.inr (Or.inr rfl))
  exact ⟨convex_bound hs ht hst ha.1 hb.1 hc.1, convex_bound hs ht hst ha.2.1 hb.2.1 hc.2.1, convex_bound hs ht hst ha.2.2 hb.2.2 hc.2.2⟩

theorem fieldTri_corners {fltMax fltMin : ℝ} {f : PlyFile ℝ} {reverse : Bool} {i : Nat} {T : Tri} (h : f.FieldTri fltMax fltMin reverse i T)
    {q : Vec3 ℝ} (hq : T.Corner q) : ∃ j, f.FieldVertex fltMax fltMin j q := by
  obtain ⟨i1, i2, i3, a, b, c, _, _, _, h1, h2, h3, rfl⟩ := h
  cases reverse
  · rcases hq with rfl | rfl | rfl
    · exact ⟨_, h1⟩
    · exact ⟨_, h2⟩
    · exact ⟨_, h3⟩
  · rcases hq with rfl | rfl | rfl
    · exact ⟨_, h1⟩
    · exact ⟨_, h3⟩
    · exact ⟨_, h2⟩

/-- Built trees store only inserted triangles. -/
theorem build_subset {half : ℝ} {pos : Vec3 ℝ} {l : List Tri} {t : TriTree} (h : TriTree.build half pos l = some t) {x : Tri} (hx : t.Stored x) : x ∈ l := by
  by_contra hc
  have := build_append half pos [] (t := TriTree.new half 0 pos) rfl l
  rw [List.nil_append, h] at this
  rw [Option.some.inj this] at hx
  refine foldl_ins_stored l _ (by simp [TriTree.new]) hc ?_ hx
  rw [TriTree.new, stored_leaf]; simp

theorem build_nonempty {half : ℝ} {pos : Vec3 ℝ} {l : List Tri} (hl : l ≠ []) {t : TriTree} (h : TriTree.build half pos l = some t) : ∃ x, t.Stored x := by
  obtain ⟨x, l', rfl⟩ := List.exists_cons_of_ne_nil hl
  have := build_append half pos [] (t := TriTree.new half 0 pos) rfl (x :: l')
  rw [List.nil_append, h] at this
  rw [Option.some.inj this, List.foldl_cons]
  have key : ∀ (l : List Tri) (t : TriTree), t ≠ .null → t.Stored x → (l.foldl (fun t x => t.ins x) t).Stored x := by
    intro l
    induction l with
    | nil => intro t _ h; exact h
    | cons y l ih => intro t hn h; exact ih _ (ins_ne_null hn y) ((ins_stored hn y x).mpr (Or.inl h))
  refine ⟨x, key l' _ (ins_ne_null (by simp [TriTree.new]) x) ?_⟩
  rw [ins_stored (by simp [TriTree.new])]
  right
  refine ⟨rfl, ?_⟩
  rw [TriTree.new, TriTree.HasRoom]
  left; simp

/-- C64: for any mesh of proper triangles, at every point (for which the squared distances do not reach the largest
float) the absolute value of the field is the distance to some triangle of the mesh -- hence never less than the distance
to the mesh -- and it is positive when the point is strictly on the side of that triangle to which its normal points,
otherwise not positive. -/
theorem C64_value_partial (fltMax fltMin : ℝ) (f : PlyFile ℝ) (hf : f.Sound) (reverse : Bool) (mf0 : MeshField) (junk : Tri) :
    ∃ half pos l mf, MeshField.load fltMax fltMin f reverse mf0 = some mf ∧ f.FieldTris fltMax fltMin reverse l ∧ 0 ≤ half ∧
      (∀ i v, f.FieldVertex fltMax fltMin i v → InBox pos half v) ∧ f.TightBox fltMax fltMin pos half ∧
      ((∀ T ∈ l, T.Proper) → ∀ p : Vec3 ℝ, (∀ q, InBox pos half q → sqDist p q < fltMax) →
        ∃ v T K, mf.value fltMax junk p.x p.y p.z = some v ∧ T ∈ l ∧ T.Nearest p K ∧ |v| = Real.sqrt (sqDist p K) ∧
          (0 < (p.sub T.a).dot ((T.a.sub T.b).cross (T.a.sub T.c)) → 0 ≤ v) ∧
          ((p.sub T.a).dot ((T.a.sub T.b).cross (T.a.sub T.c)) ≤ 0 → v ≤ 0)) := by
  obtain ⟨half, pos, l, root, hl, hroot, h0, hhalf, hbox, htight, hload⟩ := C64_load fltMax fltMin f hf reverse mf0
  refine ⟨half, pos, l, _, hload, hl, h0, hbox, htight, ?_⟩
  intro hp p hfin
  have hne : l ≠ [] := by
    intro h; rw [h] at hl; have := hl.1; have := hf.some_face; simp at *; omega
  have hlbox : ∀ T ∈ l, ∀ q, T.Mem q → InBox pos half q := by
    intro T hT q hq
    obtain ⟨i, hi⟩ := List.mem_iff_getElem?.mp hT
    refine mem_box ?_ hq
    intro c hc
    obtain ⟨j, hj⟩ := fieldTri_corners (hl.2 i T hi) hc
    exact hbox j c hj
  obtain ⟨x, pos', half', hx⟩ := build_nonempty hne hroot
  have hxl := build_subset hroot ⟨_, _, hx⟩
  -- not the initial value
  have hne2 : root.nearTriangle fltMax junk p ≠ (junk, Real.sqrt fltMax, 0) := by
    intro hjunk
    have hsh := hx
    obtain ⟨lv, ts, hm, _⟩ := hsh
    obtain ⟨_, _, hh', hin⟩ := C41_shape half h0 pos l root hroot pos' half' lv ts hm
    have hh0 : 0 ≤ half' := by rw [hh']; positivity
    have b1 : InBox pos' half' pos' := by unfold InBox; refine ⟨⟨?_, ?_⟩, ⟨?_, ?_⟩, ?_, ?_⟩ <;> linarith
    have k1 : x.Mem x.a := ⟨0, 0, le_rfl, le_rfl, by norm_num, by simp [triPoint]⟩
    have := C42_bound half h0 pos l root hroot fltMax junk p x (hp x hxl) pos' half' hx pos' x.a b1 k1
    rw [hjunk] at this
    dsimp only at this
    have f1 := hfin _ (hin _ b1)
    have f2 := hfin _ (hlbox x hxl _ k1)
    have n1 : 0 ≤ sqDist p pos' := by unfold sqDist; positivity
    have n2 : 0 ≤ sqDist p x.a := by unfold sqDist; positivity
    exact absurd this (not_le.mpr (max_lt (Real.sqrt_lt_sqrt n1 f1) (Real.sqrt_lt_sqrt n2 f2)))
  rcases C42_source fltMax junk root p with h | ⟨y, hy, h⟩
  · exact absurd h hne2
  have hyl := build_subset hroot hy
  obtain ⟨K, hK, hd⟩ := triDistance_nearest (hp y hyl) p
  have hd1 : (triDistance p y).1 = sqDist p K := by rw [hd]; rfl
  have hval : (⟨some root⟩ : MeshField).value fltMax junk p.x p.y p.z = some (Real.sqrt (sqDist p K) * ((triDistance p y).2 : ℝ)) := by
    unfold MeshField.value
    have : (⟨p.x, p.y, p.z⟩ : Vec3 ℝ) = p := rfl
    simp only [Option.bind_eq_bind, Option.bind_some, this, h, hd1]
  refine ⟨_, y, K, hval, hyl, hK, ?_⟩
  have hsq := Real.sqrt_nonneg (sqDist p K)
  rcases C43_sign y (hp y hyl) p with ⟨e, c⟩ | ⟨e, c⟩
  · rw [e]
    refine ⟨by simp [abs_of_nonneg hsq], fun _ => by simp, fun h => absurd c (not_lt.mpr h)⟩
  · rw [e]
    refine ⟨by simp [abs_of_nonneg hsq], fun h => absurd h (not_lt.mpr c), fun _ => by simp⟩

/-- C64: for a mesh of at most sixty proper triangles the absolute value of the field is the distance to the mesh. -/
theorem C64_value_small (fltMax fltMin : ℝ) (f : PlyFile ℝ) (hf : f.Sound) (h60 : f.fcount ≤ 60) (reverse : Bool) (mf0 : MeshField) (junk : Tri) :
    ∃ half pos l mf, MeshField.load fltMax fltMin f reverse mf0 = some mf ∧ f.FieldTris fltMax fltMin reverse l ∧ 0 ≤ half ∧
      (∀ i v, f.FieldVertex fltMax fltMin i v → InBox pos half v) ∧ f.TightBox fltMax fltMin pos half ∧
      ((∀ T ∈ l, T.Proper) → ∀ p : Vec3 ℝ, (∀ q, InBox pos half q → sqDist p q < fltMax) →
        ∃ v K, mf.value fltMax junk p.x p.y p.z = some v ∧ NearestOn l p K ∧ |v| = Real.sqrt (sqDist p K)) := by
  obtain ⟨half, pos, l, root, hl, hroot, h0, hhalf, hbox, htight, hload⟩ := C64_load fltMax fltMin f hf reverse mf0
  refine ⟨half, pos, l, _, hload, hl, h0, hbox, htight, ?_⟩
  intro hp p hfin
  have hne : l ≠ [] := by
    intro h; rw [h] at hl; have := hl.1; have := hf.some_face; simp at *; omega
  have hlbox : ∀ T ∈ l, ∀ q, T.Mem q → InBox pos half q := by
    intro T hT q hq
    obtain ⟨i, hi⟩ := List.mem_iff_getElem?.mp hT
    refine mem_box ?_ hq
    intro c hc
    obtain ⟨j, hj⟩ := fieldTri_corners (hl.2 i T hi) hc
    exact hbox j c hj
  obtain ⟨t, ht, y, hy, e1, K, hK, e2, e3, e4⟩ := C42_small half h0 pos l (by rw [hl.1]; exact h60) hne hp hlbox fltMax junk p
    (fun T hT q hq => hfin q (hlbox T hT q hq))
  rw [hroot] at ht
  obtain rfl := Option.some.inj ht
  have hval : (⟨some root⟩ : MeshField).value fltMax junk p.x p.y p.z = some (Real.sqrt (sqDist p K) * ((triDistance p y).2 : ℝ)) := by
    unfold MeshField.value
    have : (⟨p.x, p.y, p.z⟩ : Vec3 ℝ) = p := rfl
    simp only [Option.bind_eq_bind, Option.bind_some, this, e2, e4]
  refine ⟨_, K, hval, ⟨⟨y, hy, hK⟩, e3⟩, ?_⟩
  have hsq := Real.sqrt_nonneg (sqDist p K)
  rcases C43_sign y (hp y hy) p with ⟨e, _⟩ | ⟨e, _⟩ <;> rw [e] <;> simp [abs_of_nonneg hsq]

/-- C64: the gradient is the exact gradient wherever the field is affine at the six sample points, if the tree has a size. -/
theorem C64_grad (fltMax : ℝ) (junk : Tri) (root : TriTree) (half : ℝ) (hh : root.halfSize = some half) (h0 : half ≠ 0)
    (x y z : ℝ) (g : Vec3 ℝ) (c : ℝ)
    (hx : ∀ s ∈ [-1, 1], (⟨some root⟩ : MeshField).value fltMax junk (x + s * (half / 500)) y z = some (g.x * (x + s * (half / 500)) + g.y * y + g.z * z + c))
    (hy : ∀ s ∈ [-1, 1], (⟨some root⟩ : MeshField).value fltMax junk x (y + s * (half / 500)) z = some (g.x * x + g.y * (y + s * (half / 500)) + g.z * z + c))
    (hz : ∀ s ∈ [-1, 1], (⟨some root⟩ : MeshField).value fltMax junk x y (z + s * (half / 500)) = some (g.x * x + g.y * y + g.z * (z + s * (half / 500)) + c)) :
    (⟨some root⟩ : MeshField).grad fltMax junk x y z = some g := by
  have x1 := hx (-1) (by simp)
  have x2 := hx 1 (by simp)
  have y1 := hy (-1) (by simp)
  have y2 := hy 1 (by simp)
  have z1 := hz (-1) (by simp)
  have z2 := hz 1 (by simp)
  simp only [neg_mul, one_mul, ← sub_eq_add_neg] at x1 x2 y1 y2 z1 z2
  unfold MeshField.grad
  simp only [Option.bind_eq_bind, Option.bind_some, hh, x1, x2, y1, y2, z1, z2]
  congr 1
  ext
  · dsimp only; field_simp; ring
  · dsimp only; field_simp; ring
  · dsimp only; field_simp; ring

/-! ### A concrete file -/

/-- One triangle `(0,0,0), (32,0,0), (0,32,0)`. -/
def demoPly : PlyFile ℝ := ⟨3, [0, 0, 0, 32, 0, 0, 0, 32, 0], 1, [0, 1, 2]⟩

theorem demoPly_sound : demoPly.Sound := by
  refine ⟨rfl, rfl, ?_, by decide⟩
  intro i hi
  simp only [demoPly, List.mem_cons, List.not_mem_nil, or_false] at hi ⊢
  omega

theorem demoPly_normalization : normalization 1000000 1 demoPly = some (⟨16, 16, 1 / 2⟩, 1) := by
  have r : List.range 3 = [0, 1, 2] := by decide
  have e : (List.range demoPly.vcount).foldlM
        (fun (s : (ℝ × ℝ) × (ℝ × ℝ) × (ℝ × ℝ)) (i : Nat) => (do
          let x ← demoPly.vdata[3 * i]?
          let y ← demoPly.vdata[3 * i + 1]?
          let z ← demoPly.vdata[3 * i + 2]?
          some (minMaxStep s.1 x, minMaxStep s.2.1 y, minMaxStep s.2.2 z) : Option ((ℝ × ℝ) × (ℝ × ℝ) × (ℝ × ℝ)))) ((1000000, 1), (1000000, 1), (1000000, 1)) =
      some ((0, 32), (0, 32), (0, 1)) := by
    show (List.range 3).foldlM _ _ = _
    rw [r]
    simp only [List.foldlM_cons, List.foldlM_nil, demoPly]
    norm_num [minMaxStep]
  unfold normalization
  simp only [Option.bind_eq_bind] at e
  simp only [Option.bind_eq_bind, e, Option.bind_some]
  norm_num

/-- The hypotheses of `C64_value_small` are met by this file: the field is defined at the origin and its absolute value is
the distance to the (moved) triangle. -/
example (junk : Tri) : ∃ mf v, MeshField.load 1000000 1 demoPly false MeshField.new = some mf ∧ mf.value 1000000 junk 0 0 7 = some v ∧ |v| = 15 / 2 := by
  obtain ⟨half, pos, l, mf, hload, hl, h0, hbox, htight, hval⟩ := C64_value_small 1000000 1 demoPly demoPly_sound (by decide) false MeshField.new junk
  have hv : ∀ i v, demoPly.FieldVertex 1000000 1 i v → ∃ p, demoPly.Raw i p ∧ v = ⟨p.x - 16, p.y - 16, p.z - 1 / 2⟩ := by
    rintro i v ⟨c, k, p, hn, hr, _, rfl⟩
    rw [demoPly_normalization] at hn
    cases hn
    exact ⟨p, hr, by norm_num⟩
  have hT : ∀ T ∈ l, T = Tri.make ⟨-16, -16, -1 / 2⟩ ⟨16, -16, -1 / 2⟩ ⟨-16, 16, -1 / 2⟩ := by
    intro T hT
    obtain ⟨i, hi⟩ := List.mem_iff_getElem?.mp hT
    have hi0 : i = 0 := by
      have := (List.getElem?_eq_some_iff.mp hi).1
      rw [hl.1] at this
      simp [demoPly] at this
      exact this
    subst hi0
    obtain ⟨i1, i2, i3, a, b, c, e1, e2, e3, h1, h2, h3, rfl⟩ := hl.2 0 T hi
    simp only [demoPly, Nat.mul_zero, Nat.zero_add, List.getElem?_cons_zero, List.getElem?_cons_succ, Option.some.injEq] at e1 e2 e3
    subst e1 e2 e3
    obtain ⟨pa, ra, rfl⟩ := hv _ _ h1
    obtain ⟨pb, rb, rfl⟩ := hv _ _ h2
    obtain ⟨pc, rc, rfl⟩ := hv _ _ h3
    simp only [PlyFile.Raw, demoPly] at ra rb rc
    norm_num at ra rb rc
    obtain ⟨a1, a2, a3⟩ := ra
    obtain ⟨b1, b2, b3⟩ := rb
    obtain ⟨c1, c2, c3⟩ := rc
    rw [← a1, ← a2, ← a3, ← b1, ← b2, ← b3, ← c1, ← c2, ← c3]
    norm_num
  have hmem : Tri.make ⟨-16, -16, -1 / 2⟩ ⟨16, -16, -1 / 2⟩ ⟨-16, 16, -1 / 2⟩ ∈ l := by
    have h1 : l.length = 1 := hl.1
    obtain ⟨x, hx⟩ := List.length_eq_one_iff.mp h1
    rw [hx] at hT ⊢
    rw [hT x (by simp)]; simp
  have hprop : ∀ T ∈ l, T.Proper := by
    intro T h
    rw [hT T h]
    apply proper_make
    simp only [Vec3.cross, Vec3.sub, ne_eq, Vec3.mk.injEq]
    norm_num
  -- the box is not large
  obtain ⟨b1, b2, b3, b4⟩ := htight (-16) 16 (by norm_num) (by norm_num) (by
    rintro i v hiv
    obtain ⟨p, ⟨r1, r2, r3⟩, rfl⟩ := hv i v hiv
    have hi : i < 3 := by obtain ⟨_, _, _, _, _, h, _⟩ := hiv; exact h
    simp only [demoPly] at r1 r2 r3
    interval_cases i <;> norm_num at r1 r2 r3 <;> rw [← r1, ← r2, ← r3] <;> norm_num)
  obtain ⟨v, K, hv1, hK, hv2⟩ := hval hprop ⟨0, 0, 7⟩ (by
    rintro ⟨x, y, z⟩ ⟨⟨q1, q2⟩, ⟨q3, q4⟩, q5, q6⟩
    simp only [sqDist] at *
    nlinarith)
  refine ⟨mf, v, hload, hv1, ?_⟩
  rw [hv2]
  obtain ⟨⟨T, hTl, s, t, hs, ht, hst, rfl⟩, hmin⟩ := hK
  have h1 := hmin _ hmem ⟨0, 0, -1 / 2⟩ ⟨1 / 2, 1 / 2, by norm_num, by norm_num, by norm_num, by
    simp only [triPoint, Tri.make, Vec3.mk.injEq]; norm_num⟩
  rw [hT T hTl] at h1 ⊢
  have e : sqDist ⟨0, 0, 7⟩ (triPoint (Tri.make ⟨-16, -16, -1 / 2⟩ ⟨16, -16, -1 / 2⟩ ⟨-16, 16, -1 / 2⟩) s t) = (15 / 2) ^ 2 := by
    apply le_antisymm
    · refine h1.trans ?_
      simp only [sqDist]; norm_num
    · simp only [sqDist, triPoint, Tri.make]
      nlinarith [sq_nonneg (0 - (-16 + s * (16 - -16) + t * (-16 - -16)) : ℝ), sq_nonneg (0 - (-16 + s * (-16 - -16) + t * (16 - -16)) : ℝ)]
  rw [e, Real.sqrt_sq (by norm_num)]

end
end Isomesh
