import Verif.Model.Mesh
import Mathlib.Algebra.Order.Field.Basic
import Mathlib.Tactic.FieldSimp
import Mathlib.Tactic.NormNum
import Mathlib.Data.List.Basic
import Mathlib.Algebra.Order.Ring.Rat

/-! C34 (mesh container), C44, C45 (PLY normalisation and winding), C55 (PLY export round trip). -/

set_option linter.unusedSectionVars false

namespace Isomesh

/-! ### C34 -/

/-- Mutating calls on a mesh. -/
inductive MeshOp (K : Type)
  | vertex (pos normal : Vec3 K) (mat : Material)
  | triangle (i1 i2 i3 : Nat)
  | clear
  | assign (i : Nat) (v : MeshVertex K)

namespace MeshOp
variable {K : Type}

/-- Effect of one call on the model. -/
def apply (m : Mesh K) : MeshOp K → Option (Mesh K)
  | vertex p n mat => (m.addVertex p n mat).map (·.1)
  | triangle i j k => m.addTriangle i j k
  | clear => some m.clear
  | assign i v => m.setVertex i v

/-- Specification state: a sequence of vertices and a sequence of triangles. -/
abbrev Spec (K : Type) := List (MeshVertex K) × List (Nat × Nat × Nat)

/-- What one call is specified to do: vertices are appended, triangles with three different corners are
appended, degenerate ones are ignored, an assignment replaces one vertex. -/
def specStep (s : Spec K) : MeshOp K → Spec K
  | vertex p n mat => (s.1 ++ [⟨p, n, mat⟩], s.2)
  | triangle i j k => (s.1, if i ≠ j ∧ j ≠ k ∧ i ≠ k then s.2 ++ [(i, j, k)] else s.2)
  | clear => ([], [])
  | assign i v => (s.1.set i v, s.2)

/-- The call names only existing vertices, and there is room for a new one. -/
def Ok (s : Spec K) : MeshOp K → Prop
  | vertex _ _ _ => s.1.length ≤ 4294967295
  | triangle i j k => i < s.1.length ∧ j < s.1.length ∧ k < s.1.length
  | clear => True
  | assign i _ => i < s.1.length

/-- A whole history is well-formed. -/
def Valid (s : Spec K) : List (MeshOp K) → Prop
  | [] => True
  | op :: ops => Ok s op ∧ Valid (specStep s op) ops

end MeshOp

/-- The arrays of `m` are exactly the specified vertices and, in order, the corners of the triangles. -/
def Mesh.Represents {K : Type} (m : Mesh K) (s : MeshOp.Spec K) : Prop :=
  m.vertices = s.1 ∧ m.indices = s.2.flatMap (fun t => [t.1, t.2.1, t.2.2])

/-- All stored triangles are proper: existing, pairwise different corners. -/
def MeshOp.Proper {K : Type} (s : MeshOp.Spec K) : Prop :=
  ∀ t ∈ s.2, t.1 < s.1.length ∧ t.2.1 < s.1.length ∧ t.2.2 < s.1.length ∧
    t.1 ≠ t.2.1 ∧ t.2.1 ≠ t.2.2 ∧ t.1 ≠ t.2.2

theorem Mesh.step_spec {K : Type} {m : Mesh K} {s : MeshOp.Spec K} (h : m.Represents s)
    (hp : MeshOp.Proper s) (op : MeshOp K) (ho : MeshOp.Ok s op) :
    ∃ m', MeshOp.apply m op = some m' ∧ m'.Represents (MeshOp.specStep s op) ∧
      MeshOp.Proper (MeshOp.specStep s op) := by
  obtain ⟨hv, hi⟩ := h
  cases op with
  | vertex p n mat =>
    simp only [MeshOp.Ok] at ho
    refine ⟨⟨m.vertices ++ [⟨p, n, mat⟩], m.indices⟩, ?_, ⟨by simp [MeshOp.specStep, hv], hi⟩, ?_⟩
    · simp [MeshOp.apply, Mesh.addVertex, hv, ho]
    · intro t ht
      have := hp t ht
      simp only [MeshOp.specStep, List.length_append, List.length_singleton]
      omega
  | triangle i j k =>
    simp only [MeshOp.Ok] at ho
    simp only [MeshOp.apply, Mesh.addTriangle, hv, if_pos ho]
    by_cases hd : i = j ∨ j = k ∨ i = k
    · rw [if_pos hd]
      have hd' : ¬ (i ≠ j ∧ j ≠ k ∧ i ≠ k) := by tauto
      refine ⟨m, rfl, ?_, ?_⟩ <;> simp only [MeshOp.specStep, if_neg hd']
      · exact ⟨hv, hi⟩
      · exact hp
    · rw [if_neg hd]
      have hd' : i ≠ j ∧ j ≠ k ∧ i ≠ k := by tauto
      refine ⟨_, rfl, ?_, ?_⟩ <;> simp only [MeshOp.specStep, if_pos hd']
      · exact ⟨rfl, by simp [hi]⟩
      · intro t ht
        rcases List.mem_append.1 ht with h | h
        · exact hp t h
        · simp only [List.mem_singleton] at h
          subst h
          exact ⟨ho.1, ho.2.1, ho.2.2, hd'.1, hd'.2.1, hd'.2.2⟩
  | clear => exact ⟨_, rfl, ⟨rfl, rfl⟩, fun t ht => by cases ht⟩
  | assign i v =>
    simp only [MeshOp.Ok] at ho
    refine ⟨⟨m.vertices.set i v, m.indices⟩, ?_, ⟨by simp [MeshOp.specStep, hv], hi⟩, ?_⟩
    · simp [MeshOp.apply, Mesh.setVertex, write, hv, ho]
    · intro t ht
      have := hp t ht
      simpa [MeshOp.specStep] using this

/-- C34.  Any well-formed history of calls on an empty mesh succeeds; afterwards the vertex array is the
sequence of vertices added since the last `clear` (with assignments applied), the index array lists, in
order, exactly the corners of the non-degenerate triangles added since; so there are three indices per
triangle, all below the vertex count, and no triangle repeats a corner. -/
theorem C34_mesh_history {K : Type} (ops : List (MeshOp K)) (hv : MeshOp.Valid ([], []) ops) :
    ∃ m, ops.foldlM MeshOp.apply Mesh.new = some m ∧
      m.Represents (ops.foldl MeshOp.specStep ([], [])) ∧
      MeshOp.Proper (ops.foldl MeshOp.specStep ([], [])) ∧
      m.indexCount = 3 * (ops.foldl MeshOp.specStep ([], [])).2.length ∧
      ∀ i ∈ m.indices, i < m.vertexCount := by
  have gen : ∀ (ops : List (MeshOp K)) (m : Mesh K) (s : MeshOp.Spec K), m.Represents s → MeshOp.Proper s →
      MeshOp.Valid s ops → ∃ m', ops.foldlM MeshOp.apply m = some m' ∧
        m'.Represents (ops.foldl MeshOp.specStep s) ∧ MeshOp.Proper (ops.foldl MeshOp.specStep s) := by
    intro ops
    induction ops with
    | nil => intro m s h hp _; exact ⟨m, rfl, h, hp⟩
    | cons op ops ih =>
      intro m s h hp hval
      obtain ⟨m1, e1, h1, hp1⟩ := Mesh.step_spec h hp op hval.1
      obtain ⟨m2, e2, h2⟩ := ih m1 _ h1 hp1 hval.2
      exact ⟨m2, by rw [List.foldlM_cons, e1]; exact e2, h2⟩
  obtain ⟨m, e, hr, hp⟩ := gen ops Mesh.new ([], []) ⟨rfl, rfl⟩ (fun t ht => by cases ht) hv
  refine ⟨m, e, hr, hp, ?_, ?_⟩
  · unfold Mesh.indexCount
    rw [hr.2]
    generalize (ops.foldl MeshOp.specStep ([], [])).2 = l
    induction l with
    | nil => rfl
    | cons t l ih => simp only [List.flatMap_cons, List.length_append, List.length_cons, List.length_nil, ih]; ring
  · intro i hi
    rw [hr.2] at hi
    unfold Mesh.vertexCount
    rw [hr.1]
    obtain ⟨t, ht, hit⟩ := List.mem_flatMap.1 hi
    have := hp t ht
    simp only [List.mem_cons, List.not_mem_nil, or_false] at hit
    rcases hit with rfl | rfl | rfl
    · exact this.1
    · exact this.2.1
    · exact this.2.2.1

/-- C34, `addVertex`: it returns the index at which the new vertex is stored, and neither changes nor moves
any stored vertex or index. -/
theorem C34_addVertex {K : Type} (m : Mesh K) (p n : Vec3 K) (mat : Material)
    (h : m.vertexCount ≤ 4294967295) :
    ∃ m' i, m.addVertex p n mat = some (m', i) ∧ i = m.vertexCount ∧ m'.vertexCount = m.vertexCount + 1 ∧
      m'.vertices[i]? = some ⟨p, n, mat⟩ ∧ (∀ j < m.vertexCount, m'.vertices[j]? = m.vertices[j]?) ∧
      m'.indices = m.indices := by
  unfold Mesh.vertexCount at *
  refine ⟨⟨m.vertices ++ [⟨p, n, mat⟩], m.indices⟩, m.vertices.length, ?_, rfl, by simp, by simp, ?_, rfl⟩
  · simp [Mesh.addVertex, h, u32]; omega
  · intro j hj
    simp [List.getElem?_append_left hj]

/-- Non-vacuity of C34: a valid history including a degenerate triangle and a clear. -/
example : MeshOp.Valid (K := ℚ) ([], [])
    [.vertex ⟨0, 0, 0⟩ ⟨0, 0, 1⟩ .Solid, .clear, .vertex ⟨0, 0, 0⟩ ⟨0, 0, 1⟩ .Solid,
     .vertex ⟨1, 0, 0⟩ ⟨0, 0, 1⟩ .Soil, .vertex ⟨0, 1, 0⟩ ⟨0, 0, 1⟩ .Soil, .triangle 0 1 2, .triangle 2 2 1] := by
  simp [MeshOp.Valid, MeshOp.Ok, MeshOp.specStep]

/-! ### C45 -/

section
variable {K : Type} [Field K] [LinearOrder K] [IsStrictOrderedRing K]

/-- Twice the area vector of a triangle: its direction is the side the triangle faces. -/
def areaVector (t : Vec3 K × Vec3 K × Vec3 K) : Vec3 K := (t.2.1.sub t.1).cross (t.2.2.sub t.1)

/-- Swapping the last two corners. -/
def swapLast {α : Type} (t : α × α × α) : α × α × α := (t.1, t.2.2, t.2.1)

/-- C45.  Switching the winding order swaps two corners of every triangle (so the vertex set is kept), both
in the index and in the coordinate view, which negates its area vector; switching back restores everything,
and setting the same order twice changes nothing more. -/
theorem C45_winding (d : PlyData K) (idx : Nat) :
    (d.setWindingOrder (!d.windingOrder)).triangleIndexs idx = (d.triangleIndexs idx).map swapLast ∧
    (d.setWindingOrder (!d.windingOrder)).triangle idx = (d.triangle idx).map swapLast ∧
    (∀ t t', d.triangle idx = some t → (d.setWindingOrder (!d.windingOrder)).triangle idx = some t' →
      areaVector t' = ⟨-(areaVector t).x, -(areaVector t).y, -(areaVector t).z⟩) ∧
    (d.setWindingOrder (!d.windingOrder)).setWindingOrder d.windingOrder = d := by
  have h1 : (d.setWindingOrder (!d.windingOrder)).triangleIndexs idx = (d.triangleIndexs idx).map swapLast := by
    unfold PlyData.triangleIndexs PlyData.setWindingOrder PlyData.windingOrder
    dsimp only
    cases h0 : d.file.fdata[3 * idx]? <;> cases ha : d.file.fdata[3 * idx + 1]? <;>
      cases hb : d.file.fdata[3 * idx + 2]? <;> cases hd : d.direct <;> simp [swapLast]
  have hvert : ∀ i, (d.setWindingOrder (!d.windingOrder)).vertex i = d.vertex i := fun i => rfl
  have h2 : (d.setWindingOrder (!d.windingOrder)).triangle idx = (d.triangle idx).map swapLast := by
    unfold PlyData.triangle
    rw [h1]
    cases ht : d.triangleIndexs idx with
    | none => rfl
    | some t =>
      simp only [Option.map_some, Option.bind_eq_bind, Option.bind_some, hvert, swapLast]
      cases d.vertex t.1 <;> cases d.vertex t.2.1 <;> cases d.vertex t.2.2 <;> simp [swapLast]
  refine ⟨h1, h2, ?_, rfl⟩
  intro t t' ht ht'
  rw [h2, ht] at ht'
  cases ht'
  simp only [areaVector, swapLast, Vec3.cross, Vec3.sub]
  ext <;> ring

/-- Non-vacuity of C45: there is a triangle whose area vector is not zero. -/
example : areaVector ((⟨0, 0, 0⟩, ⟨1, 0, 0⟩, ⟨0, 1, 0⟩) : Vec3 ℚ × Vec3 ℚ × Vec3 ℚ) = ⟨0, 0, 1⟩ := by
  simp [areaVector, Vec3.cross, Vec3.sub]

/-! ### C44 -/

/-- The `i`-th vertex of a PLY file as stored. -/
def PlyFile.Raw (f : PlyFile K) (i : Nat) (p : Vec3 K) : Prop :=
  f.vdata[3 * i]? = some p.x ∧ f.vdata[3 * i + 1]? = some p.y ∧ f.vdata[3 * i + 2]? = some p.z

/-- The vertex buffer is as long as the header says. -/
def PlyFile.Complete (f : PlyFile K) : Prop := f.vdata.length = 3 * f.vcount

theorem PlyFile.Complete.raw {f : PlyFile K} (h : f.Complete) {i : Nat} (hi : i < f.vcount) :
    ∃ p, f.Raw i p := by
  have h0 : 3 * i < f.vdata.length := by rw [h]; omega
  have h1 : 3 * i + 1 < f.vdata.length := by rw [h]; omega
  have h2 : 3 * i + 2 < f.vdata.length := by rw [h]; omega
  exact ⟨⟨f.vdata[3 * i], f.vdata[3 * i + 1], f.vdata[3 * i + 2]⟩, by simp, by simp, by simp⟩

/-- Running minimum/maximum over a list of values. -/
theorem minMax_spec (fltMax fltMin : K) (l : List K) :
    let r := l.foldl minMaxStep (fltMax, fltMin)
    (∀ c ∈ l, r.1 ≤ c ∧ c ≤ r.2) ∧ r.1 ≤ fltMax ∧ fltMin ≤ r.2 ∧
      (r.1 = fltMax ∨ r.1 ∈ l) ∧ (r.2 = fltMin ∨ r.2 ∈ l) := by
  have gen : ∀ (l : List K) (a b : K), let r := l.foldl minMaxStep (a, b)
      (∀ c ∈ l, r.1 ≤ c ∧ c ≤ r.2) ∧ r.1 ≤ a ∧ b ≤ r.2 ∧ (r.1 = a ∨ r.1 ∈ l) ∧ (r.2 = b ∨ r.2 ∈ l) := by
    intro l
    induction l with
    | nil => intro a b; simp
    | cons c l ih =>
      intro a b
      have h := ih (minMaxStep (a, b) c).1 (minMaxStep (a, b) c).2
      simp only [Prod.mk.eta] at h
      have e : (c :: l).foldl minMaxStep (a, b) = l.foldl minMaxStep (minMaxStep (a, b) c) := rfl
      dsimp only
      rw [e]
      generalize l.foldl minMaxStep (minMaxStep (a, b) c) = r at *
      obtain ⟨g1, g2, g3, g4, g5⟩ := h
      have m1 : (minMaxStep (a, b) c).1 ≤ c ∧ (minMaxStep (a, b) c).1 ≤ a ∧
          ((minMaxStep (a, b) c).1 = c ∨ (minMaxStep (a, b) c).1 = a) := by
        unfold minMaxStep; dsimp only; split
        · exact ⟨le_refl c, by linarith, Or.inl rfl⟩
        · exact ⟨by linarith, le_refl a, Or.inr rfl⟩
      have m2 : c ≤ (minMaxStep (a, b) c).2 ∧ b ≤ (minMaxStep (a, b) c).2 ∧
          ((minMaxStep (a, b) c).2 = c ∨ (minMaxStep (a, b) c).2 = b) := by
        unfold minMaxStep; dsimp only; split
        · exact ⟨le_refl c, by linarith, Or.inl rfl⟩
        · exact ⟨by linarith, le_refl b, Or.inr rfl⟩
      refine ⟨?_, g2.trans m1.2.1, m2.2.1.trans g3, ?_, ?_⟩
      · intro x hx
        rcases List.mem_cons.1 hx with rfl | hx
        · exact ⟨g2.trans m1.1, m2.1.trans g3⟩
        · exact g1 x hx
      · rcases g4 with h | h
        · rcases m1.2.2 with h' | h'
          · right; rw [h, h']; exact List.mem_cons_self ..
          · left; rw [h, h']
        · right; exact List.mem_cons_of_mem _ h
      · rcases g5 with h | h
        · rcases m2.2.2 with h' | h'
          · right; rw [h, h']; exact List.mem_cons_self ..
          · left; rw [h, h']
        · right; exact List.mem_cons_of_mem _ h
  exact gen l fltMax fltMin

theorem normalization_fold (f : PlyFile K) (h : f.Complete) :
    ∃ ps : List (Vec3 K), ps.length = f.vcount ∧ (∀ i p, ps[i]? = some p ↔ (i < f.vcount ∧ f.Raw i p)) ∧
      ∀ s, (List.range f.vcount).foldlM
        (fun (s : (K × K) × (K × K) × (K × K)) (i : Nat) => do
          let x ← f.vdata[3 * i]?
          let y ← f.vdata[3 * i + 1]?
          let z ← f.vdata[3 * i + 2]?
          some (minMaxStep s.1 x, minMaxStep s.2.1 y, minMaxStep s.2.2 z)) s =
        some ((ps.map Vec3.x).foldl minMaxStep s.1, (ps.map Vec3.y).foldl minMaxStep s.2.1,
          (ps.map Vec3.z).foldl minMaxStep s.2.2) := by
  have gen : ∀ n ≤ f.vcount, ∃ ps : List (Vec3 K), ps.length = n ∧
      (∀ i p, ps[i]? = some p ↔ (i < n ∧ f.Raw i p)) ∧
      ∀ s, (List.range n).foldlM
        (fun (s : (K × K) × (K × K) × (K × K)) (i : Nat) => do
          let x ← f.vdata[3 * i]?
          let y ← f.vdata[3 * i + 1]?
          let z ← f.vdata[3 * i + 2]?
          some (minMaxStep s.1 x, minMaxStep s.2.1 y, minMaxStep s.2.2 z)) s =
        some ((ps.map Vec3.x).foldl minMaxStep s.1, (ps.map Vec3.y).foldl minMaxStep s.2.1,
          (ps.map Vec3.z).foldl minMaxStep s.2.2) := by
    intro n
    induction n with
    | zero => intro _; exact ⟨[], rfl, by simp, fun s => rfl⟩
    | succ n ih =>
      intro hn
      obtain ⟨ps, hl, hps, hf⟩ := ih (by omega)
      obtain ⟨p, hp⟩ := h.raw (i := n) (by omega)
      refine ⟨ps ++ [p], by simp [hl], ?_, ?_⟩
      · intro i q
        by_cases hi : i < n
        · rw [List.getElem?_append_left (by omega), hps]
          constructor
          · rintro ⟨a, b⟩; exact ⟨by omega, b⟩
          · rintro ⟨a, b⟩; exact ⟨hi, b⟩
        · by_cases hi' : i = n
          · subst hi'
            rw [← hl]
            simp only [List.getElem?_concat_length]
            rw [hl]
            constructor
            · intro e; cases e; exact ⟨by omega, hp⟩
            · rintro ⟨-, q1, q2, q3⟩
              obtain ⟨p1, p2, p3⟩ := hp
              rw [p1] at q1; rw [p2] at q2; rw [p3] at q3
              congr 1
              ext
              · exact Option.some.inj q1
              · exact Option.some.inj q2
              · exact Option.some.inj q3
          · rw [List.getElem?_eq_none (by simp; omega)]
            constructor
            · intro e; cases e
            · rintro ⟨a, -⟩; omega
      · intro s
        rw [List.range_succ, List.foldlM_append, hf s]
        simp [hp.1, hp.2.1, hp.2.2, List.foldl_append]
  exact gen f.vcount le_rfl

/-- Bounding box of the stored vertices on one axis, as an independent notion. -/
def PlyFile.Extent (f : PlyFile K) (a : Axis) (lo hi : K) : Prop :=
  (∀ i < f.vcount, ∀ p, f.Raw i p → lo ≤ p.get a ∧ p.get a ≤ hi) ∧
  (∃ i < f.vcount, ∃ p, f.Raw i p ∧ p.get a = lo) ∧ (∃ i < f.vcount, ∃ p, f.Raw i p ∧ p.get a = hi)

theorem normalization_spec (fltMax fltMin : K) (f : PlyFile K) (h : f.Complete) :
    ∃ lo hi : Axis → K,
      normalization fltMax fltMin f = some (⟨(hi .X + lo .X) / 2, (hi .Y + lo .Y) / 2, (hi .Z + lo .Z) / 2⟩,
        max (hi .X - lo .X) (max (hi .Y - lo .Y) (hi .Z - lo .Z)) / 32) ∧
      ∀ a, (∀ i < f.vcount, ∀ p, f.Raw i p → lo a ≤ p.get a ∧ p.get a ≤ hi a) ∧
        lo a ≤ fltMax ∧ fltMin ≤ hi a ∧
        (lo a = fltMax ∨ ∃ i < f.vcount, ∃ p, f.Raw i p ∧ p.get a = lo a) ∧
        (hi a = fltMin ∨ ∃ i < f.vcount, ∃ p, f.Raw i p ∧ p.get a = hi a) := by
  obtain ⟨ps, hl, hps, hf⟩ := normalization_fold f h
  have key : ∀ (a : Axis) (r : K × K), (ps.map (fun p => p.get a)).foldl minMaxStep (fltMax, fltMin) = r →
      (∀ i < f.vcount, ∀ p, f.Raw i p → r.1 ≤ p.get a ∧ p.get a ≤ r.2) ∧
        r.1 ≤ fltMax ∧ fltMin ≤ r.2 ∧
        (r.1 = fltMax ∨ ∃ i < f.vcount, ∃ p, f.Raw i p ∧ p.get a = r.1) ∧
        (r.2 = fltMin ∨ ∃ i < f.vcount, ∃ p, f.Raw i p ∧ p.get a = r.2) := by
    intro a r hr
    have hm := minMax_spec fltMax fltMin (ps.map (fun p => p.get a))
    dsimp only at hm
    rw [hr] at hm
    obtain ⟨g1, g2, g3, g4, g5⟩ := hm
    have mem : ∀ c, c ∈ ps.map (fun p => p.get a) → ∃ i < f.vcount, ∃ p, f.Raw i p ∧ p.get a = c := by
      intro c hc
      obtain ⟨p, hp, rfl⟩ := List.mem_map.1 hc
      obtain ⟨i, hi⟩ := List.mem_iff_getElem?.1 hp
      exact ⟨i, ((hps i p).1 hi).1, p, ((hps i p).1 hi).2, rfl⟩
    refine ⟨?_, g2, g3, g4.imp id (mem _), g5.imp id (mem _)⟩
    intro i hi p hp
    exact g1 _ (List.mem_map.2 ⟨p, List.mem_iff_getElem?.2 ⟨i, (hps i p).2 ⟨hi, hp⟩⟩, rfl⟩)
  let r : Axis → K × K := fun a => (ps.map (fun p => p.get a)).foldl minMaxStep (fltMax, fltMin)
  refine ⟨fun a => (r a).1, fun a => (r a).2, ?_, fun a => key a _ rfl⟩
  unfold normalization
  rw [hf]
  rfl

/-- C44, the part that always holds.  Loading any complete file (with all coordinates at most `FLT_MAX`)
succeeds, and if the computed scale is nonzero every loaded vertex lies in the cube `[-16,16]^3`; if moreover
every axis has a coordinate that is at least `FLT_MIN` (the positive start value of the maximum search) the
scale and centre are those of the true bounding box, i.e. the loaded model is centred and some axis has
extent exactly 32.  Missing: the last part for models with all coordinates of an axis below `FLT_MIN`
(false, see `C44_negative_fails`). -/
theorem C44_normalization_partial (fltMax fltMin : K) (f : PlyFile K) (h : f.Complete) (hn : 0 < f.vcount)
    (hmax : ∀ i < f.vcount, ∀ p, f.Raw i p → ∀ a : Axis, p.get a ≤ fltMax) :
    ∃ d, PlyData.load fltMax fltMin f = some d ∧ d.verticesCount = f.vcount ∧ 0 ≤ d.multiplier ∧
      (d.multiplier ≠ 0 → ∀ i < f.vcount, ∃ v, d.vertex i = some v ∧ ∀ a : Axis, -16 ≤ v.get a ∧ v.get a ≤ 16) ∧
      ((∀ a : Axis, ∃ i < f.vcount, ∃ p, f.Raw i p ∧ fltMin ≤ p.get a) →
        ∃ lo hi : Axis → K, (∀ a, f.Extent a (lo a) (hi a)) ∧
          (∀ a, d.center.get a = (lo a + hi a) / 2) ∧
          (∀ a, hi a - lo a ≤ 32 * d.multiplier) ∧ (∃ a, hi a - lo a = 32 * d.multiplier) ∧
          (d.multiplier = 0 ↔ ∀ i < f.vcount, ∀ j < f.vcount, ∀ p q, f.Raw i p → f.Raw j q → p = q)) := by
  obtain ⟨lo, hi, hnorm, hbox⟩ := normalization_spec fltMax fltMin f h
  have hld : PlyData.load fltMax fltMin f = some ⟨true, f,
      ⟨(hi .X + lo .X) / 2, (hi .Y + lo .Y) / 2, (hi .Z + lo .Z) / 2⟩,
      max (hi .X - lo .X) (max (hi .Y - lo .Y) (hi .Z - lo .Z)) / 32⟩ := by
    unfold PlyData.load; rw [hnorm]; rfl
  refine ⟨_, hld, rfl, ?_⟩
  obtain ⟨p0, hp0⟩ := h.raw hn
  have hle : ∀ a, lo a ≤ hi a := fun a => ((hbox a).1 0 hn p0 hp0).1.trans ((hbox a).1 0 hn p0 hp0).2
  set M := max (hi .X - lo .X) (max (hi .Y - lo .Y) (hi .Z - lo .Z)) with hM
  have hMa : ∀ a, hi a - lo a ≤ M := by
    intro a; cases a
    · exact le_max_left _ _
    · exact (le_max_left _ _).trans (le_max_right _ _)
    · exact (le_max_right _ _).trans (le_max_right _ _)
  have hM0 : 0 ≤ M := (sub_nonneg.2 (hle .X)).trans (hMa .X)
  have hMex : ∃ a, hi a - lo a = M := by
    rcases max_choice (hi .X - lo .X) (max (hi .Y - lo .Y) (hi .Z - lo .Z)) with h | h
    · exact ⟨.X, by rw [hM, h]⟩
    · rcases max_choice (hi .Y - lo .Y) (hi .Z - lo .Z) with h' | h'
      · exact ⟨.Y, by rw [hM, h, h']⟩
      · exact ⟨.Z, by rw [hM, h, h']⟩
  refine ⟨div_nonneg hM0 (by norm_num), ?_, ?_⟩
  · intro hm i hi'
    dsimp only at hm
    have hMpos : 0 < M := by
      rcases hM0.lt_or_eq with h | h
      · exact h
      · rw [← h] at hm; simp at hm
    obtain ⟨p, hp⟩ := h.raw hi'
    have bound : ∀ a : Axis, -16 ≤ (p.get a - (hi a + lo a) / 2) / (M / 32) ∧
        (p.get a - (hi a + lo a) / 2) / (M / 32) ≤ 16 := by
      intro a
      have hb := (hbox a).1 i hi' p hp
      have hMa' := hMa a
      have h32 : 0 < M / 32 := by positivity
      constructor
      · rw [le_div_iff₀ h32]; linarith
      · rw [div_le_iff₀ h32]; linarith
    refine ⟨⟨(p.x - (hi .X + lo .X) / 2) / (M / 32), (p.y - (hi .Y + lo .Y) / 2) / (M / 32),
      (p.z - (hi .Z + lo .Z) / 2) / (M / 32)⟩, ?_, ?_⟩
    · simp [PlyData.vertex, hp.1, hp.2.1, hp.2.2]
    · intro a; cases a
      · exact bound .X
      · exact bound .Y
      · exact bound .Z
  · intro hpos
    have hext : ∀ a, f.Extent a (lo a) (hi a) := by
      intro a
      obtain ⟨b1, b2, b3, b4, b5⟩ := hbox a
      refine ⟨b1, ?_, ?_⟩
      · rcases b4 with e | e
        · refine ⟨0, hn, p0, hp0, le_antisymm ?_ ((b1 0 hn p0 hp0).1)⟩
          rw [e]; exact hmax 0 hn p0 hp0 a
        · exact e
      · rcases b5 with e | e
        · obtain ⟨i, hi', p, hp, hge⟩ := hpos a
          refine ⟨i, hi', p, hp, le_antisymm ((b1 i hi' p hp).2) ?_⟩
          rw [e]; exact hge
        · exact e
    refine ⟨lo, hi, hext, ?_, ?_, ?_, ?_⟩
    · intro a; cases a <;> simp [Vec3.get, add_comm]
    · intro a; have := hMa a; dsimp only; linarith
    · obtain ⟨a, ha⟩ := hMex; exact ⟨a, by rw [ha]; ring⟩
    · dsimp only
      have hz : M / 32 = 0 ↔ M = 0 := by
        constructor
        · intro e; linarith
        · intro e; rw [e]; ring
      rw [hz]
      constructor
      · intro hM00 i hi' j hj p q hp hq
        have : ∀ a, p.get a = q.get a := by
          intro a
          have e1 := (hbox a).1 i hi' p hp
          have e2 := (hbox a).1 j hj q hq
          have e3 := hMa a
          rw [hM00] at e3
          apply le_antisymm <;> linarith
        ext
        · exact this .X
        · exact this .Y
        · exact this .Z
      · intro hall
        obtain ⟨a, ha⟩ := hMex
        obtain ⟨-, ⟨i, hi', p, hp, e1⟩, ⟨j, hj, q, hq, e2⟩⟩ := hext a
        have := hall i hi' j hj p q hp hq
        rw [← ha, ← e1, ← e2, this]; ring

/-- A file with two vertices, both with negative coordinates (a unit diagonal). -/
def negativeFile : PlyFile ℚ := ⟨2, [-2, -2, -2, -1, -1, -1], 0, []⟩

/-- C44 as a user expects it is false: for a model whose coordinates are all negative the loaded model does
not have extent 32 on any axis (whatever small positive number `FLT_MIN` is). -/
theorem C44_negative_fails (fltMax fltMin : ℚ) (h1 : 0 < fltMin) (h2 : fltMin < fltMax) :
    ∃ d, PlyData.load fltMax fltMin negativeFile = some d ∧
      ∃ v w, d.vertex 0 = some v ∧ d.vertex 1 = some w ∧ ∀ a : Axis, w.get a - v.get a < 32 := by
  have a1 : (-2 : ℚ) < fltMax := by linarith
  have a2 : ¬ fltMin < -2 := by linarith
  have a3 : ¬ fltMin < -1 := by linarith
  have e : (do
      let s ← (List.range negativeFile.vcount).foldlM
        (fun (s : (ℚ × ℚ) × (ℚ × ℚ) × (ℚ × ℚ)) (i : Nat) => do
          let x ← negativeFile.vdata[3 * i]?
          let y ← negativeFile.vdata[3 * i + 1]?
          let z ← negativeFile.vdata[3 * i + 2]?
          some (minMaxStep s.1 x, minMaxStep s.2.1 y, minMaxStep s.2.2 z))
        ((fltMax, fltMin), (fltMax, fltMin), (fltMax, fltMin))
      some s) = some ((-2, fltMin), (-2, fltMin), (-2, fltMin)) := by
    have hr : List.range negativeFile.vcount = [0, 1] := rfl
    have d0 : negativeFile.vdata = [-2, -2, -2, -1, -1, -1] := rfl
    rw [hr, d0]
    have n1 : ¬ (-2 : ℚ) > fltMin := by linarith
    have n2 : ¬ (-1 : ℚ) > fltMin := by linarith
    have n3 : ¬ (-1 : ℚ) < -2 := by norm_num
    simp [minMaxStep, a1, n1, n2, n3]
  have e' : normalization fltMax fltMin negativeFile =
      some (⟨(fltMin + -2) / 2, (fltMin + -2) / 2, (fltMin + -2) / 2⟩, (fltMin - -2) / 32) := by
    unfold normalization
    rw [Option.bind_eq_bind] at *
    cases hs : (List.range negativeFile.vcount).foldlM
        (fun (s : (ℚ × ℚ) × (ℚ × ℚ) × (ℚ × ℚ)) (i : Nat) => do
          let x ← negativeFile.vdata[3 * i]?
          let y ← negativeFile.vdata[3 * i + 1]?
          let z ← negativeFile.vdata[3 * i + 2]?
          some (minMaxStep s.1 x, minMaxStep s.2.1 y, minMaxStep s.2.2 z))
        ((fltMax, fltMin), (fltMax, fltMin), (fltMax, fltMin)) with
    | none => rw [hs] at e; cases e
    | some s =>
      rw [hs] at e
      cases e
      simp
  refine ⟨⟨true, negativeFile, ⟨(fltMin + -2) / 2, (fltMin + -2) / 2, (fltMin + -2) / 2⟩, (fltMin - -2) / 32⟩,
    by unfold PlyData.load; rw [e']; rfl, ?_⟩
  refine ⟨_, _, rfl, rfl, ?_⟩
  have hp : 0 < (fltMin - -2) / 32 := by linarith
  have key : (-1 - (fltMin + -2) / 2) / ((fltMin - -2) / 32) - (-2 - (fltMin + -2) / 2) / ((fltMin - -2) / 32)
      < 32 := by
    rw [← sub_div, div_lt_iff₀ hp]; linarith
  intro a
  cases a <;> exact key

/-- Non-vacuity of C44: a complete file with a positive coordinate on every axis. -/
example : (⟨2, [-2, -2, -2, 1, 1, 1], 0, []⟩ : PlyFile ℚ).Complete := rfl

/-! ### C55 -/

theorem getElem?_flatMap3 {α β : Type} (g1 g2 g3 : α → β) (l : List α) (i : Nat) :
    (l.flatMap (fun v => [g1 v, g2 v, g3 v]))[3 * i]? = l[i]?.map g1 ∧
    (l.flatMap (fun v => [g1 v, g2 v, g3 v]))[3 * i + 1]? = l[i]?.map g2 ∧
    (l.flatMap (fun v => [g1 v, g2 v, g3 v]))[3 * i + 2]? = l[i]?.map g3 := by
  induction l generalizing i with
  | nil => simp
  | cons v l ih =>
    cases i with
    | zero => simp
    | succ i =>
      obtain ⟨h1, h2, h3⟩ := ih i
      refine ⟨?_, ?_, ?_⟩
      · have : 3 * (i + 1) = 3 * i + 3 := by ring
        rw [this]; simpa using h1
      · have : 3 * (i + 1) + 1 = 3 * i + 1 + 3 := by ring
        rw [this]; simpa using h2
      · have : 3 * (i + 1) + 2 = 3 * i + 2 + 3 := by ring
        rw [this]; simpa using h3

theorem length_flatMap3 {α β : Type} (g1 g2 g3 : α → β) (l : List α) :
    (l.flatMap (fun v => [g1 v, g2 v, g3 v])).length = 3 * l.length := by
  induction l with
  | nil => rfl
  | cons v l ih => simp only [List.flatMap_cons, List.length_append, ih, List.length_cons, List.length_nil]; ring

/-- C55, export.  The buffers handed to the PLY writer have the mesh's vertex count, the coordinates of the
`i`-th vertex at positions `3i..3i+2`, as many faces as the mesh has triangles and the corners of the `k`-th
triangle at positions `3k..3k+2`. -/
theorem C55_export (m : Mesh K) (s : MeshOp.Spec K) (h : m.Represents s) :
    (mesh2ply m).vcount = s.1.length ∧ (mesh2ply m).Complete ∧
    (∀ i v, s.1[i]? = some v → (mesh2ply m).Raw i v.position) ∧
    (mesh2ply m).fcount = s.2.length ∧ (mesh2ply m).fdata.length = 3 * s.2.length ∧
    (∀ k t, s.2[k]? = some t → (mesh2ply m).fdata[3 * k]? = some t.1 ∧
      (mesh2ply m).fdata[3 * k + 1]? = some t.2.1 ∧ (mesh2ply m).fdata[3 * k + 2]? = some t.2.2) := by
  obtain ⟨hv, hi⟩ := h
  refine ⟨by simp [mesh2ply, Mesh.vertexCount, hv], ?_, ?_, ?_, ?_, ?_⟩
  · simp only [PlyFile.Complete, mesh2ply, Mesh.vertexCount]
    exact length_flatMap3 _ _ _ _
  · intro i v hiv
    have := getElem?_flatMap3 (fun v : MeshVertex K => v.position.x) (fun v => v.position.y)
      (fun v => v.position.z) m.vertices i
    rw [hv, hiv] at this
    unfold PlyFile.Raw mesh2ply
    rw [hv]
    simpa using this
  · simp only [mesh2ply, Mesh.indexCount, hi]
    rw [length_flatMap3]; omega
  · simp only [mesh2ply, hi]; exact length_flatMap3 _ _ _ _
  · intro k t hk
    have := getElem?_flatMap3 (fun t : Nat × Nat × Nat => t.1) (fun t => t.2.1) (fun t => t.2.2) s.2 k
    rw [hk] at this
    simp only [mesh2ply, hi]
    simpa using this

theorem write_some {α : Type} {l : List α} {i : Nat} (v : α) (h : i < l.length) :
    ∃ l', write l i v = some l' ∧ l'.length = l.length := ⟨l.set i v, by simp [write, h], by simp⟩

/-- C55, round trip.  Exporting a (non-empty) mesh and loading the file with `ply2mesh` gives a mesh with
the same number of vertices in the same order, each position moved by one common normalising map, and the
same triangles in the same order; with `reverseLoadedOrder` each triangle has its last two corners swapped. -/
theorem C55_roundtrip (fltMax fltMin : K) (normalize : Vec3 K → Vec3 K) (m : Mesh K) (s : MeshOp.Spec K)
    (h : m.Represents s) (hp : MeshOp.Proper s) (hsz : s.1.length ≤ 4294967296) (reverse : Bool) :
    ∃ (m' : Mesh K) (c : Vec3 K) (k : K), normalization fltMax fltMin (mesh2ply m) = some (c, k) ∧
      ply2mesh fltMax fltMin normalize (mesh2ply m) reverse = some m' ∧
      m'.vertexCount = m.vertexCount ∧
      (∀ (i : Nat) (v : MeshVertex K), m.vertices[i]? = some v → ∃ n : Vec3 K, m'.vertices[i]? =
        some ⟨⟨(v.position.x - c.x) / k, (v.position.y - c.y) / k, (v.position.z - c.z) / k⟩, n, .Solid⟩) ∧
      m'.Represents (m'.vertices, if reverse then s.2.map swapLast else s.2) ∧
      (reverse = false → m'.indices = m.indices) := by
  obtain ⟨e1, e2, e3, e4, e5, e6⟩ := C55_export m s h
  set f := mesh2ply m with hf
  obtain ⟨lo, hi, hnorm, -⟩ := normalization_spec fltMax fltMin f e2
  generalize hc : (⟨(hi .X + lo .X) / 2, (hi .Y + lo .Y) / 2, (hi .Z + lo .Z) / 2⟩ : Vec3 K) = c at hnorm
  generalize hk : max (hi .X - lo .X) (max (hi .Y - lo .Y) (hi .Z - lo .Z)) / 32 = k at hnorm
  have hld : PlyData.load fltMax fltMin f = some ⟨true, f, c, k⟩ := by
    unfold PlyData.load; rw [hnorm]; rfl
  have hD : (if reverse = true then (⟨true, f, c, k⟩ : PlyData K).setWindingOrder false else ⟨true, f, c, k⟩) =
      ⟨!reverse, f, c, k⟩ := by cases reverse <;> rfl
  -- reading vertices and triangles
  have hvert : ∀ i v, s.1[i]? = some v → (⟨!reverse, f, c, k⟩ : PlyData K).vertex i =
      some ⟨(v.position.x - c.x) / k, (v.position.y - c.y) / k, (v.position.z - c.z) / k⟩ := by
    intro i v hiv
    have := e3 i v hiv
    simp [PlyData.vertex, this.1, this.2.1, this.2.2]
  have htri : ∀ i t, s.2[i]? = some t → (⟨!reverse, f, c, k⟩ : PlyData K).triangleIndexs i =
      some (if reverse then swapLast t else t) := by
    intro i t hit
    have := e6 i t hit
    cases reverse <;> simp [PlyData.triangleIndexs, this.1, this.2.1, this.2.2, swapLast]
  set d : PlyData K := ⟨!reverse, f, c, k⟩ with hd
  have htr_lt : ∀ (i : Nat) (t : Nat × Nat × Nat), s.2[i]? = some t → ∀ t', t' = (if reverse then swapLast t else t) →
      (t'.1 < s.1.length ∧ t'.2.1 < s.1.length ∧ t'.2.2 < s.1.length) ∧
      ¬ (t'.1 = t'.2.1 ∨ t'.2.1 = t'.2.2 ∨ t'.1 = t'.2.2) := by
    intro i t hit t' ht'
    have := hp t (List.mem_iff_getElem?.2 ⟨i, hit⟩)
    subst ht'
    cases reverse <;> simp [swapLast] <;> omega
  -- normals
  have hnormals : ∀ n ≤ s.2.length, ∃ ns, (List.range n).foldlM (plyNormalStep d)
      (List.replicate s.1.length ⟨0, 0, 0⟩) = some ns ∧ ns.length = s.1.length := by
    intro n
    induction n with
    | zero => intro _; exact ⟨_, rfl, by simp⟩
    | succ n ih =>
      intro hn
      obtain ⟨ns, hns, hlen⟩ := ih (by omega)
      rw [List.range_succ, List.foldlM_append, hns]
      have hget : s.2[n]? = some s.2[n] := List.getElem?_eq_getElem (by omega)
      generalize s.2[n] = t at hget
      have ht := htri n t hget
      obtain ⟨⟨l1, l2, l3⟩, -⟩ := htr_lt n t hget _ rfl
      generalize (if reverse = true then swapLast t else t) = t' at *
      have v1 := hvert t'.1 _ (List.getElem?_eq_getElem l1)
      have v2 := hvert t'.2.1 _ (List.getElem?_eq_getElem l2)
      have v3 := hvert t'.2.2 _ (List.getElem?_eq_getElem l3)
      simp only [Option.bind_eq_bind, Option.bind_some, List.foldlM_cons, List.foldlM_nil, plyNormalStep, ht, v1, v2, v3]
      obtain ⟨w1, x1, y1⟩ := write_some (l := ns) (i := t'.1) _ (by omega)
      rw [x1, Option.bind_some]
      obtain ⟨w2, x2, y2⟩ := write_some (l := w1) (i := t'.2.1) _ (by omega)
      rw [x2, Option.bind_some]
      obtain ⟨w3, x3, y3⟩ := write_some (l := w2) (i := t'.2.2) _ (by omega)
      rw [x3, Option.bind_some]
      exact ⟨w3, rfl, by omega⟩
  obtain ⟨ns, hns, hnlen⟩ := hnormals s.2.length le_rfl
  -- vertices
  have hverts : ∀ n ≤ s.1.length, ∃ m' : Mesh K, (List.range n).foldlM (fun (m : Mesh K) i => do
      let v ← d.vertex i
      let n ← (ns.map normalize)[i]?
      let r ← m.addVertex v n .Solid
      some r.1) Mesh.new = some m' ∧ m'.vertices.length = n ∧ m'.indices = [] ∧
      ∀ i < n, ∀ v, s.1[i]? = some v → ∃ nn, m'.vertices[i]? =
        some ⟨⟨(v.position.x - c.x) / k, (v.position.y - c.y) / k, (v.position.z - c.z) / k⟩, nn, .Solid⟩ := by
    intro n
    induction n with
    | zero => intro _; exact ⟨_, rfl, rfl, rfl, fun i hi => absurd hi (by omega)⟩
    | succ n ih =>
      intro hn
      obtain ⟨m', hm', hl, hix, hvs⟩ := ih (by omega)
      have hget : s.1[n]? = some s.1[n] := List.getElem?_eq_getElem (by omega)
      have hng : (ns.map normalize)[n]? = some (normalize (ns[n]'(by omega))) := by
        rw [List.getElem?_map, List.getElem?_eq_getElem (by omega)]; rfl
      generalize normalize (ns[n]'(by omega)) = nn at hng
      generalize s.1[n] = v at hget
      have hle : m'.vertices.length ≤ 4294967295 := by omega
      refine ⟨⟨m'.vertices ++ [⟨⟨(v.position.x - c.x) / k, (v.position.y - c.y) / k,
        (v.position.z - c.z) / k⟩, nn, .Solid⟩], m'.indices⟩, ?_, by simp [hl], hix, ?_⟩
      · rw [List.range_succ, List.foldlM_append, hm']
        simp only [Option.bind_eq_bind, Option.bind_some, List.foldlM_cons, List.foldlM_nil, hvert n v hget, hng,
          Mesh.addVertex, if_pos hle]
        rfl
      · intro i hi v' hv'
        by_cases hin : i < n
        · obtain ⟨nn', e⟩ := hvs i hin v' hv'
          exact ⟨nn', by rw [List.getElem?_append_left (by omega)]; exact e⟩
        · have : i = n := by omega
          subst this
          rw [hget] at hv'; cases hv'
          exact ⟨nn, by rw [← hl]; simp⟩
  obtain ⟨m1, hm1, hl1, hix1, hvs1⟩ := hverts s.1.length le_rfl
  -- triangles
  have htris : ∀ n ≤ s.2.length, (List.range n).foldlM (fun (m : Mesh K) i => do
      let t ← d.triangleIndexs i
      m.addTriangle t.1 t.2.1 t.2.2) m1 = some ⟨m1.vertices,
        ((s.2.take n).map (fun t => if reverse then swapLast t else t)).flatMap
          (fun t => [t.1, t.2.1, t.2.2])⟩ := by
    intro n
    induction n with
    | zero =>
      intro _
      show some m1 = some ⟨m1.vertices, []⟩
      rw [← hix1]
    | succ n ih =>
      intro hn
      have hget : s.2[n]? = some s.2[n] := List.getElem?_eq_getElem (by omega)
      have htake : s.2.take (n + 1) = s.2.take n ++ [s.2[n]] := by
        rw [List.take_add_one, hget]; rfl
      rw [htake]
      generalize s.2[n] = t at hget
      have ht := htri n t hget
      obtain ⟨l, l4⟩ := htr_lt n t hget _ rfl
      rw [List.range_succ, List.foldlM_append, ih (by omega)]
      simp only [List.map_append, List.map_cons, List.map_nil, List.flatMap_append, List.flatMap_cons,
        List.flatMap_nil, List.append_nil]
      generalize (if reverse = true then swapLast t else t) = t' at *
      rw [← hl1] at l
      simp only [Option.bind_eq_bind, Option.bind_some, List.foldlM_cons, List.foldlM_nil, ht,
        Mesh.addTriangle, if_pos l, if_neg l4]
      rfl
  have hfin := htris s.2.length le_rfl
  rw [List.take_length] at hfin
  refine ⟨⟨m1.vertices, (s.2.map (fun t => if reverse then swapLast t else t)).flatMap
    (fun t => [t.1, t.2.1, t.2.2])⟩, c, k, hnorm, ?_, ?_, ?_, ?_, ?_⟩
  rotate_left
  · show m1.vertices.length = _
    rw [hl1, Mesh.vertexCount, h.1]
  · intro i v hiv
    rw [h.1] at hiv
    have hil : i < s.1.length := (List.getElem?_eq_some_iff.1 hiv).1
    exact hvs1 i hil v hiv
  · refine ⟨rfl, ?_⟩
    show List.flatMap _ (s.2.map (fun t => if reverse then swapLast t else t)) = _
    cases reverse <;> simp
  · intro hr
    subst hr
    rw [h.2]; simp
  · unfold ply2mesh
    rw [hld]
    simp only [Option.bind_eq_bind, Option.bind_some, hD]
    rw [show d.trianglesCount = s.2.length from e4, show d.verticesCount = s.1.length from e1, hns]
    simp only [Option.bind_some]
    simp only [Option.bind_eq_bind] at hm1 hfin
    rw [hm1]
    simp only [Option.bind_some]
    exact hfin

end
end Isomesh
