import Verif.Proofs.AllEdges
import Verif.Spec.FillCalls
import Mathlib.Data.List.Nodup

/-! The loops of `fill` with arbitrary user code. -/

set_option linter.unusedSectionVars false

namespace Isomesh
open Spec

/-! ### Nested loops as folds -/

section nest
variable {σ : Type} (step : IVec3 → σ → σ) (lo xe ze : Int)

def nestZ (y x z : Int) (s : σ) : σ := (irange lo z).foldl (fun s z => step ⟨x, y, z⟩ s) s
def nestX (y x : Int) (s : σ) : σ := (irange lo x).foldl (fun s x => nestZ step lo y x ze s) s
def nestY (y : Int) (s : σ) : σ := (irange lo y).foldl (fun s y => nestX step lo ze y xe s) s

theorem nestZ_succ (y x : Int) {z : Int} (h : lo ≤ z) (s : σ) : nestZ step lo y x (z + 1) s = step ⟨x, y, z⟩ (nestZ step lo y x z s) := by
  simp [nestZ, irange_succ h]
theorem nestX_succ (y : Int) {x : Int} (h : lo ≤ x) (s : σ) :
    nestX step lo ze y (x + 1) s = nestZ step lo y x ze (nestX step lo ze y x s) := by simp [nestX, irange_succ h]
theorem nestY_succ {y : Int} (h : lo ≤ y) (s : σ) :
    nestY step lo xe ze (y + 1) s = nestX step lo ze y xe (nestY step lo xe ze y s) := by simp [nestY, irange_succ h]
theorem nestZ_nil (y x : Int) (s : σ) : nestZ step lo y x lo s = s := by simp [nestZ, irange_self]
theorem nestX_nil (y : Int) (s : σ) : nestX step lo ze y lo s = s := by simp [nestX, irange_self]
theorem nestY_nil (s : σ) : nestY step lo xe ze lo s = s := by simp [nestY, irange_self]

/-- The points of a nested loop. -/
def nestPts (ye : Int) : List IVec3 :=
  (irange lo ye).flatMap fun y => (irange lo xe).flatMap fun x => (irange lo ze).map fun z => ⟨x, y, z⟩

theorem nestY_eq (ye : Int) (s : σ) : nestY step lo xe ze ye s = (nestPts lo xe ze ye).foldl (fun s p => step p s) s := by
  unfold nestY nestPts nestX nestZ
  rw [List.foldl_flatMap]
  congr 1
  funext s y
  rw [List.foldl_flatMap]
  congr 1
  funext s x
  rw [List.foldl_map]

end nest

theorem nestPts_nodup (lo xe ze ye : Int) : (nestPts lo xe ze ye).Nodup := by
  unfold nestPts
  have hn : ∀ a b, (irange a b).Nodup := fun a b => (irange_pairwise a b).imp (by intro a b h; omega)
  rw [List.nodup_flatMap]
  refine ⟨fun y _ => ?_, ?_⟩
  · rw [List.nodup_flatMap]
    refine ⟨fun x _ => ?_, ?_⟩
    · exact (hn _ _).map (by intro a b h; injection h)
    · refine (hn _ _).imp ?_
      intro a b hab
      simp only [Function.onFun]
      intro p h1 h2
      simp only [List.mem_map] at h1 h2
      obtain ⟨_, _, rfl⟩ := h1
      obtain ⟨_, _, h⟩ := h2
      injection h with h
      exact hab h.symm
  · refine (hn _ _).imp ?_
    intro a b hab
    simp only [Function.onFun]
    intro p h1 h2
    simp only [List.mem_flatMap, List.mem_map] at h1 h2
    obtain ⟨_, _, _, _, rfl⟩ := h1
    obtain ⟨_, _, _, _, h⟩ := h2
    injection h with _ h
    exact hab h.symm

theorem mem_nestPts {lo xe ze ye : Int} {p : IVec3} :
    p ∈ nestPts lo xe ze ye ↔ (lo ≤ p.x ∧ p.x < xe) ∧ (lo ≤ p.y ∧ p.y < ye) ∧ lo ≤ p.z ∧ p.z < ze := by
  obtain ⟨x, y, z⟩ := p
  unfold nestPts
  simp only [List.mem_flatMap, List.mem_map, mem_irange, IVec3.mk.injEq]
  constructor
  · rintro ⟨y', h1, x', h2, z', h3, rfl, rfl, rfl⟩; exact ⟨h2, h1, h3⟩
  · rintro ⟨h1, h2, h3⟩; exact ⟨y, h2, x, h1, z, h3, rfl, rfl, rfl⟩

variable {K : Type} [Add K] [Sub K] [Mul K] [Div K] [Zero K] [IntCast K] [LE K] [LT K] [DecidableLE K] [DecidableLT K]

/-! ### Conversations -/

theorem conversation_nil (u : UserCode K) (h : List (Call K)) : Conversation u h [] := by
  intro pre c post e; simp at e

theorem conversation_cons (u : UserCode K) (h : List (Call K)) (c : Call K) (cs : List (Call K)) :
    Conversation u h (c :: cs) ↔ Answered u h c ∧ Conversation u (h ++ [c]) cs := by
  constructor
  · intro H
    refine ⟨by simpa using H [] c cs rfl, fun pre d post e => ?_⟩
    have := H (c :: pre) d post (by rw [e]; rfl)
    simpa using this
  · rintro ⟨h1, h2⟩ pre d post e
    cases pre with
    | nil => injection e with e1 e2; subst e1; simpa using h1
    | cons a pre =>
      injection e with e1 e2
      subst e1
      have := h2 pre d post e2
      simpa using this

theorem conversation_append (u : UserCode K) (h a b : List (Call K)) :
    Conversation u h (a ++ b) ↔ Conversation u h a ∧ Conversation u (h ++ a) b := by
  induction a generalizing h with
  | nil => simp [conversation_nil]
  | cons c a ih =>
    rw [List.cons_append, conversation_cons, conversation_cons, ih]
    simp [and_assoc]

/-! ### Sampling -/

/-- Effect of the sampling of one point: values, materials, calls. -/
def sampleStep (g : Grid K) (u : UserCode K) (p : IVec3) (t : List K × List Material × List (Call K)) :
    List K × List Material × List (Call K) :=
  let v := u.value t.2.2 (g.spos p)
  let h := t.2.2 ++ [.value (g.spos p) v]
  if v > 0 then (t.1 ++ [v], t.2.1 ++ [.Empty], h)
  else (t.1 ++ [v], t.2.1 ++ [u.material h (g.spos p) v], h ++ [.material (g.spos p) v (u.material h (g.spos p) v)])

/-- Invariant of the sampling loop. -/
structure FillInvH (g : Grid K) (y x z : Int) (t : List K × List Material × List (Call K)) (s : FillState K × List (Call K)) : Prop where
  idx : (s.1.idx : Int) = lz g y x z
  vlen : s.1.values.length = g.dataSize
  mlen : s.1.mat.length = g.dataSize
  vals : s.1.values.take s.1.idx = t.1
  mats : s.1.mat.take s.1.idx = t.2.1.map some
  hist : s.2 = t.2.2

theorem take_set_succ {α : Type} (l : List α) {i : Nat} (hi : i < l.length) (v : α) : (l.set i v).take (i + 1) = l.take i ++ [v] := by
  rw [List.take_add_one, List.take_set_of_le (le_refl i), List.getElem?_set_self hi]
  rfl

theorem fillBodyH_step {g : Grid K} (hg : g.WF) {u : UserCode K} {y x z : Int} (hp : InCube g.half ⟨x, y, z⟩)
    {t} {s : FillState K × List (Call K)} (hs : FillInvH g y x z t s) (hpos : s.1.pos = g.spos ⟨x, y, z⟩) :
    ∃ s', fillBodyH u g.step s = some s' ∧ FillInvH g y x (z + 1) (sampleStep g u ⟨x, y, z⟩ t) s' ∧ s'.1.pos = g.spos ⟨x, y, z + 1⟩ := by
  have hi := vidx_of_lz hp hs.idx
  have hlt := Grid.vidx_lt' hg hp
  have hc := cube_lt hg.le
  have hd : g.dataSize = (g.size + 1) * (g.size + 1) * (g.size + 1) := dataSizeOf_eq hg.le
  have hu : u32 (s.1.idx + 1) = s.1.idx + 1 := u32_of_lt (by omega)
  have l1 : s.1.idx < s.1.values.length := by rw [hs.vlen]; omega
  have l2 : s.1.idx < s.1.mat.length := by rw [hs.mlen]; omega
  have hlz : ((s.1.idx + 1 : Nat) : Int) = lz g y x (z + 1) := by
    push_cast
    rw [hs.idx]; unfold lz; ring
  have hz : ({ s.1.pos with z := s.1.pos.z + g.step } : Vec3 K) = g.spos ⟨x, y, z + 1⟩ := by
    simp only [hpos]
    unfold Grid.spos samplePos
    ext
    · rfl
    · rfl
    · exact (stepped_next _ _ hp.2.2.1).symm
  unfold fillBodyH sampleStep
  dsimp only
  rw [write_of_lt l1, hs.hist, hpos]
  simp only [Option.bind_eq_bind, Option.bind_some]
  rw [write_of_lt l2]
  simp only [Option.bind_some, hu]
  rw [hpos] at hz
  by_cases hv : u.value t.2.2 (g.spos ⟨x, y, z⟩) > 0
  · simp only [hv, if_true]
    refine ⟨_, rfl, ⟨hlz, by simp [hs.vlen], by simp [hs.mlen], ?_, ?_, rfl⟩, hz⟩
    · dsimp only; rw [take_set_succ _ l1, hs.vals]
    · dsimp only; rw [take_set_succ _ l2, hs.mats]; simp
  · simp only [hv, if_false]
    refine ⟨_, rfl, ⟨hlz, by simp [hs.vlen], by simp [hs.mlen], ?_, ?_, rfl⟩, hz⟩
    · dsimp only; rw [take_set_succ _ l1, hs.vals]
    · dsimp only; rw [take_set_succ _ l2, hs.mats]; simp

theorem fillValuesH_spec {g : Grid K} (hg : g.WF) (u : UserCode K) (h : List (Call K)) :
    ∃ s, fillValuesH g u h = some s ∧
      (s.1.values, s.1.mat, s.2) = (fun t : List K × List Material × List (Call K) => (t.1, t.2.1.map some, t.2.2))
        (nestY (sampleStep g u) (-g.half) (g.half + 1) (g.half + 1) (g.half + 1) ([], [], h)) := by
  have hh := hg.half_eq
  have h2 := hg.two_le
  have hhalf : 0 ≤ g.half := by omega
  have hd : g.dataSize = (g.size + 1) * (g.size + 1) * (g.size + 1) := dataSizeOf_eq hg.le
  unfold fillValuesH
  set lowest := g.localToGlobal (⟨((-g.half : Int) : K), ((-g.half : Int) : K), ((-g.half : Int) : K)⟩ : Vec3 K)
    with hlow
  let T0 : List K × List Material × List (Call K) := ([], [], h)
  let TY := fun y => nestY (sampleStep g u) (-g.half) (g.half + 1) (g.half + 1) y T0
  let TX := fun y x => nestX (sampleStep g u) (-g.half) (g.half + 1) y x (TY y)
  let TZ := fun y x z => nestZ (sampleStep g u) (-g.half) y x z (TX y x)
  obtain ⟨s, e, hs, -⟩ := forLE_inv (lo := -g.half) (hi := g.half) (by omega)
    (s := (({ idx := 0, pos := lowest, values := List.replicate g.dataSize 0, mat := g.mat } : FillState K), h))
    (body := fun s _y => do
      let s := ({ s.1 with pos := { s.1.pos with x := lowest.x } }, s.2)
      let s ← forLE (-g.half) g.half s fun s _x => do
        let s := ({ s.1 with pos := { s.1.pos with z := lowest.z } }, s.2)
        let s ← forLE (-g.half) g.half s fun s _z => fillBodyH u g.step s
        some ({ s.1 with pos := { s.1.pos with x := s.1.pos.x + g.step } }, s.2)
      some ({ s.1 with pos := { s.1.pos with y := s.1.pos.y + g.step } }, s.2))
    (fun y s => FillInvH g y (-g.half) (-g.half) (TY y) s ∧ s.1.pos.y = (g.spos ⟨0, y, 0⟩).y)
    (by
      refine ⟨⟨?_, by simp, ?_, ?_, ?_, ?_⟩, ?_⟩
      · simp [lz]
      · exact hg.mat_len
      · simp [TY, nestY_nil, T0]
      · simp [TY, nestY_nil, T0]
      · simp [TY, nestY_nil, T0]
      · exact (stepped_start _ _ _).symm)
    (by
      rintro y s hy1 hy2 ⟨hs, hpy⟩
      dsimp only
      obtain ⟨s', e', hs', hpos'⟩ := forLE_inv (lo := -g.half) (hi := g.half) (by omega)
        (s := (({ s.1 with pos := { s.1.pos with x := lowest.x } } : FillState K), s.2))
        (body := fun s _x => do
          let s := ({ s.1 with pos := { s.1.pos with z := lowest.z } }, s.2)
          let s ← forLE (-g.half) g.half s fun s _z => fillBodyH u g.step s
          some ({ s.1 with pos := { s.1.pos with x := s.1.pos.x + g.step } }, s.2))
        (fun x s => FillInvH g y x (-g.half) (TX y x) s ∧
          (s.1.pos.y = (g.spos ⟨0, y, 0⟩).y ∧ s.1.pos.x = (g.spos ⟨x, 0, 0⟩).x))
        (by
          have ht : TX y (-g.half) = TY y := nestX_nil _ _ _ _ _
          rw [ht]
          refine ⟨⟨hs.idx, hs.vlen, hs.mlen, hs.vals, hs.mats, hs.hist⟩, hpy, ?_⟩
          exact (stepped_start _ _ _).symm)
        (by
          rintro x s hx1 hx2 ⟨hs, hpy, hpx⟩
          dsimp only
          obtain ⟨s', e', hs', hpos'⟩ := forLE_inv (lo := -g.half) (hi := g.half) (by omega)
            (s := (({ s.1 with pos := { s.1.pos with z := lowest.z } } : FillState K), s.2))
            (body := fun s _z => fillBodyH u g.step s)
            (fun z s => FillInvH g y x z (TZ y x z) s ∧ s.1.pos = g.spos ⟨x, y, z⟩)
            (by
              have ht : TZ y x (-g.half) = TX y x := nestZ_nil _ _ _ _ _
              rw [ht]
              refine ⟨⟨hs.idx, hs.vlen, hs.mlen, hs.vals, hs.mats, hs.hist⟩, ?_⟩
              ext
              · exact hpx
              · exact hpy
              · exact (stepped_start _ _ _).symm)
            (by
              rintro z s hz1 hz2 ⟨hs, hpos⟩
              have ht : TZ y x (z + 1) = sampleStep g u ⟨x, y, z⟩ (TZ y x z) := nestZ_succ _ _ _ _ hz1 _
              rw [ht]
              exact fillBodyH_step hg ⟨⟨hx1, hx2⟩, ⟨hy1, hy2⟩, hz1, hz2⟩ hs hpos)
          rw [e']
          have ht : TX y (x + 1) = TZ y x (g.half + 1) := nestX_succ _ _ _ _ hx1 _
          rw [ht]
          refine ⟨_, rfl, ⟨?_, hs'.vlen, hs'.mlen, hs'.vals, hs'.mats, hs'.hist⟩, ?_, ?_⟩
          · simp only [hs'.idx]; unfold lz; rw [hh]; ring
          · simp only [hpos']; rfl
          · simp only [hpos']; exact (stepped_next _ _ hx1).symm)
      rw [e']
      have ht : TY (y + 1) = TX y (g.half + 1) := nestY_succ _ _ _ _ hy1 _
      rw [ht]
      refine ⟨_, rfl, ⟨?_, hs'.vlen, hs'.mlen, hs'.vals, hs'.mats, hs'.hist⟩, ?_⟩
      · simp only [hs'.idx]; unfold lz; rw [hh]; ring
      · simp only [hpos'.1]; exact (stepped_next _ _ hy1).symm)
  have hidx : s.1.idx = g.dataSize := by
    have := hs.idx
    unfold lz at this
    rw [hd]
    zify
    rw [this, hh]; ring
  refine ⟨s, e, ?_⟩
  have h1 := hs.vals
  have h2 := hs.mats
  rw [hidx, List.take_of_length_le (by rw [hs.vlen])] at h1
  rw [hidx, List.take_of_length_le (by rw [hs.mlen])] at h2
  rw [h1, h2, hs.hist]

/-! ### Edges -/

/-- The contents of the sampled arrays. -/
structure SampledH (g : Grid K) (val : IVec3 → K) (mt : IVec3 → Material) (values : List K) (mat : List (Option Material)) : Prop where
  vals : ∀ p, InCube g.half p → values[g.vidx p]? = some (val p)
  mats : ∀ p, InCube g.half p → mat[g.vidx p]? = some (some (mt p))

/-- Effect of one edge: records and calls. -/
def edgeStep (g : Grid K) (u : UserCode K) (val : IVec3 → K) (mt : IVec3 → Material) (D : Axis) (p : IVec3)
    (t : List (GridEdge K) × List (Call K)) : List (GridEdge K) × List (Call K) :=
  if ¬ (val p ≤ 0 ↔ val (edgeEnd D p) ≤ 0) then
    let far := (g.gpos p).get D + g.step
    let c := u.find t.2 D (g.gpos p) far (val p) (val (edgeEnd D p))
    let h := t.2 ++ [.find D (g.gpos p) far (val p) (val (edgeEnd D p)) c]
    let q := (g.gpos p).set D c
    (t.1 ++ [⟨p, u.grad h q, (c - (g.gpos p).get D) / g.step, D, decide (val p ≤ 0), if val p ≤ 0 then mt p else mt (edgeEnd D p)⟩],
      h ++ [.grad q (u.grad h q)])
  else t

theorem edgeBodyH_step {g : Grid K} (hg : g.WF) {u : UserCode K} {val mt values mat} (h : SampledH g val mt values mat) (D : Axis)
    {s : EdgeState K × List (Call K)} {x y z : Int}
    (hp : InCube g.half ⟨x, y, z⟩) (hq : InCube g.half (edgeEnd D ⟨x, y, z⟩))
    (h1 : s.1.idx1 = g.vidx ⟨x, y, z⟩) (h2 : s.1.idx2 = g.vidx (edgeEnd D ⟨x, y, z⟩)) :
    edgeBodyH g u D values mat s x y z =
      some (⟨s.1.idx1 + 1, s.1.idx2 + 1, (edgeStep g u val mt D ⟨x, y, z⟩ (s.1.edges, s.2)).1⟩,
        (edgeStep g u val mt D ⟨x, y, z⟩ (s.1.edges, s.2)).2) := by
  have l1 := Grid.vidx_lt hg hp
  have l2 := Grid.vidx_lt hg hq
  have hc := cube_lt hg.le
  have u1 : u32 (s.1.idx1 + 1) = s.1.idx1 + 1 := u32_of_lt (by omega)
  have u2 : u32 (s.1.idx2 + 1) = s.1.idx2 + 1 := u32_of_lt (by omega)
  have hg' : g.localToGlobal ⟨(x : K), (y : K), (z : K)⟩ = g.gpos ⟨x, y, z⟩ := rfl
  unfold edgeBodyH edgeStep
  rw [h1, h2] at *
  rw [h.vals _ hp, h.vals _ hq, h.mats _ hp, h.mats _ hq]
  simp only [Option.bind_eq_bind, Option.bind_some, Option.join_some, hg', u1, u2]
  have hset : ∀ (v : Vec3 K) (c : K), (v.set D c).get D = c := by intro v c; cases D <;> rfl
  by_cases c1 : val ⟨x, y, z⟩ ≤ 0 <;>
    by_cases c2 : val (edgeEnd D ⟨x, y, z⟩) ≤ 0 <;>
    simp [c1, c2, addEdge_ok hg, hp, hset]

/-- Invariant of the edge loops. -/
structure EInvH (g : Grid K) (off : Nat) (y x z : Int) (t : List (GridEdge K) × List (Call K)) (s : EdgeState K × List (Call K)) : Prop where
  i1 : (s.1.idx1 : Int) = lz g y x z
  i2 : s.1.idx2 = s.1.idx1 + off
  st : (s.1.edges, s.2) = t

section
variable {g : Grid K} (hg : g.WF) {u : UserCode K} {val : IVec3 → K} {mt : IVec3 → Material} {values : List K}
  {mat : List (Option Material)} (h : SampledH g val mt values mat) (h0 : List (Call K))
include hg h

theorem fillXH_spec : ∃ s, fillXH g u values mat h0 = some s ∧
    (s.1.edges, s.2) = nestY (edgeStep g u val mt .X) (-g.half) g.half (g.half + 1) (g.half + 1) ([], h0) := by
  have hh := hg.half_eq
  have hh2 := hg.two_le
  have hh3 := hg.le
  have hb := big_bound hg
  unfold fillXH
  let TY := fun y => nestY (edgeStep g u val mt .X) (-g.half) g.half (g.half + 1) y ([], h0)
  let TX := fun y x => nestX (edgeStep g u val mt .X) (-g.half) (g.half + 1) y x (TY y)
  let TZ := fun y x z => nestZ (edgeStep g u val mt .X) (-g.half) y x z (TX y x)
  obtain ⟨s, e, hs⟩ := forLE_inv (lo := -g.half) (hi := g.half) (by omega) (s := ((EdgeState.mk 0 (u32 (g.size + 1)) [] : EdgeState K), h0))
    (body := fun s y => do
      let s ← forLT (-g.half) g.half s fun s x =>
        forLE (-g.half) g.half s fun s z => edgeBodyH g u .X values mat s x y z
      some ({ s.1 with idx1 := u32 (s.1.idx1 + u32 (g.size + 1)), idx2 := u32 (s.1.idx2 + u32 (g.size + 1)) }, s.2))
    (fun y s => EInvH g (g.size + 1) y (-g.half) (-g.half) (TY y) s)
    ⟨by simp [lz], by simp [u32_of_lt (n := g.size + 1) (by omega)], by simp [TY, nestY_nil]⟩
    (by
      intro y s hy1 hy2 hs
      obtain ⟨s', e', hs'⟩ := forLT_inv (lo := -g.half) (hi := g.half) (by omega) (s := s)
        (body := fun s x => forLE (-g.half) g.half s fun s z => edgeBodyH g u .X values mat s x y z)
        (fun x s => EInvH g (g.size + 1) y x (-g.half) (TX y x) s)
        (by refine ⟨hs.i1, hs.i2, ?_⟩; rw [hs.st]; exact (nestX_nil _ _ _ _ _).symm)
        (by
          intro x s hx1 hx2 hs
          obtain ⟨s', e', hs'⟩ := forLE_inv (lo := -g.half) (hi := g.half) (by omega) (s := s)
            (body := fun s z => edgeBodyH g u .X values mat s x y z)
            (fun z s => EInvH g (g.size + 1) y x z (TZ y x z) s)
            (by refine ⟨hs.i1, hs.i2, ?_⟩; rw [hs.st]; exact (nestZ_nil _ _ _ _ _).symm)
            (by
              intro z s hz1 hz2 hs
              have hp : InCube g.half ⟨x, y, z⟩ := ⟨⟨hx1, by simp only; omega⟩, ⟨hy1, hy2⟩, hz1, hz2⟩
              have hq : InCube g.half (edgeEnd .X ⟨x, y, z⟩) := by
                unfold InCube edgeEnd shift; simp only; omega
              have j1 := vidx_of_lz hp hs.i1
              have j2 := vidx_edgeEnd .X hp hq
              simp only at j2
              refine ⟨_, edgeBodyH_step hg h .X hp hq j1 (by rw [j2, hs.i2, j1]), ?_, ?_, ?_⟩
              · have := hs.i1; simp only [lz] at this ⊢; push_cast; rw [this]; ring
              · simp only [hs.i2]; ring
              · rw [hs.st]; exact Prod.mk.eta.trans (nestZ_succ (edgeStep g u val mt .X) _ _ _ hz1 _).symm)
          refine ⟨s', e', ?_, hs'.i2, ?_⟩
          · rw [hs'.i1]; unfold lz; rw [hh]; ring
          · rw [hs'.st]; exact (nestX_succ _ _ _ _ hx1 _).symm)
      rw [e']
      have hle : s'.1.idx1 + (g.size + 1) ≤ (g.size + 1) * (g.size + 1) * (g.size + 1) := by
        have := hs'.i1
        zify
        rw [this]
        unfold lz
        have : (y + 1 + g.half) * ((g.size : Int) + 1) * (g.size + 1) ≤ ((g.size : Int) + 1) * (g.size + 1) * (g.size + 1) := by
          apply mul_le_mul_of_nonneg_right _ (by omega)
          apply mul_le_mul_of_nonneg_right _ (by omega)
          omega
        have e3 : ((g.size : Int) + 1) = g.half + g.half + 1 := by omega
        calc _ = (y + 1 + g.half) * ((g.size : Int) + 1) * (g.size + 1) := by
                rw [e3]; ring
          _ ≤ _ := this
      have u0 : u32 (g.size + 1) = g.size + 1 := u32_of_lt (by omega)
      have hi2 := hs'.i2
      have u1 : u32 (s'.1.idx1 + (g.size + 1)) = s'.1.idx1 + (g.size + 1) := u32_of_lt (by
        generalize (g.size + 1) * (g.size + 1) * (g.size + 1) = A at *
        generalize (g.size + 1) * (g.size + 1) = B at *
        omega)
      have u2 : u32 (s'.1.idx2 + (g.size + 1)) = s'.1.idx2 + (g.size + 1) := u32_of_lt (by
        generalize (g.size + 1) * (g.size + 1) * (g.size + 1) = A at *
        generalize (g.size + 1) * (g.size + 1) = B at *
        omega)
      refine ⟨_, rfl, ?_, ?_, ?_⟩
      · simp only [u0, u1]; push_cast; rw [hs'.i1]; unfold lz; rw [hh]; ring
      · simp only [u0, u1, u2]; omega
      · dsimp only; rw [hs'.st]; exact (nestY_succ _ _ _ _ hy1 _).symm)
  exact ⟨s, e, hs.st⟩

theorem fillYH_spec : ∃ s, fillYH g u values mat h0 = some s ∧
    (s.1.edges, s.2) = nestY (edgeStep g u val mt .Y) (-g.half) (g.half + 1) (g.half + 1) g.half ([], h0) := by
  have hh := hg.half_eq
  have hh2 := hg.two_le
  have hh3 := hg.le
  have hb := big_bound hg
  have u0 : u32 (u32 (g.size + 1) * u32 (g.size + 1)) = (g.size + 1) * (g.size + 1) := by
    rw [u32_of_lt (n := g.size + 1) (by omega), u32_of_lt (sq_lt hh3)]
  unfold fillYH
  let TY := fun y => nestY (edgeStep g u val mt .Y) (-g.half) (g.half + 1) (g.half + 1) y ([], h0)
  let TX := fun y x => nestX (edgeStep g u val mt .Y) (-g.half) (g.half + 1) y x (TY y)
  let TZ := fun y x z => nestZ (edgeStep g u val mt .Y) (-g.half) y x z (TX y x)
  obtain ⟨s, e, hs⟩ := forLT_inv (lo := -g.half) (hi := g.half) (by omega)
    (s := ((EdgeState.mk 0 (u32 (u32 (g.size + 1) * u32 (g.size + 1))) [] : EdgeState K), h0))
    (body := fun s y => forLE (-g.half) g.half s fun s x =>
        forLE (-g.half) g.half s fun s z => edgeBodyH g u .Y values mat s x y z)
    (fun y s => EInvH g ((g.size + 1) * (g.size + 1)) y (-g.half) (-g.half) (TY y) s)
    ⟨by simp [lz], by simp [u0], by simp [TY, nestY_nil]⟩
    (by
      intro y s hy1 hy2 hs
      obtain ⟨s', e', hs'⟩ := forLE_inv (lo := -g.half) (hi := g.half) (by omega) (s := s)
        (body := fun s x => forLE (-g.half) g.half s fun s z => edgeBodyH g u .Y values mat s x y z)
        (fun x s => EInvH g ((g.size + 1) * (g.size + 1)) y x (-g.half) (TX y x) s)
        (by refine ⟨hs.i1, hs.i2, ?_⟩; rw [hs.st]; exact (nestX_nil _ _ _ _ _).symm)
        (by
          intro x s hx1 hx2 hs
          obtain ⟨s', e', hs'⟩ := forLE_inv (lo := -g.half) (hi := g.half) (by omega) (s := s)
            (body := fun s z => edgeBodyH g u .Y values mat s x y z)
            (fun z s => EInvH g ((g.size + 1) * (g.size + 1)) y x z (TZ y x z) s)
            (by refine ⟨hs.i1, hs.i2, ?_⟩; rw [hs.st]; exact (nestZ_nil _ _ _ _ _).symm)
            (by
              intro z s hz1 hz2 hs
              have hp : InCube g.half ⟨x, y, z⟩ := ⟨⟨hx1, hx2⟩, ⟨hy1, by simp only; omega⟩, hz1, hz2⟩
              have hq : InCube g.half (edgeEnd .Y ⟨x, y, z⟩) := by
                unfold InCube edgeEnd shift; simp only; omega
              have j1 := vidx_of_lz hp hs.i1
              have j2 := vidx_edgeEnd .Y hp hq
              simp only at j2
              refine ⟨_, edgeBodyH_step hg h .Y hp hq j1 (by rw [j2, hs.i2, j1]), ?_, ?_, ?_⟩
              · have := hs.i1; simp only [lz] at this ⊢; push_cast; rw [this]; ring
              · simp only [hs.i2]; ring
              · rw [hs.st]; exact Prod.mk.eta.trans (nestZ_succ (edgeStep g u val mt .Y) _ _ _ hz1 _).symm)
          refine ⟨s', e', ?_, hs'.i2, ?_⟩
          · rw [hs'.i1]; unfold lz; rw [hh]; ring
          · rw [hs'.st]; exact (nestX_succ _ _ _ _ hx1 _).symm)
      refine ⟨s', e', ?_, hs'.i2, ?_⟩
      · rw [hs'.i1]; unfold lz; rw [hh]; ring
      · rw [hs'.st]; exact (nestY_succ _ _ _ _ hy1 _).symm)
  exact ⟨s, e, hs.st⟩

theorem fillZH_spec : ∃ s, fillZH g u values mat h0 = some s ∧
    (s.1.edges, s.2) = nestY (edgeStep g u val mt .Z) (-g.half) (g.half + 1) g.half (g.half + 1) ([], h0) := by
  have hh := hg.half_eq
  have hh2 := hg.two_le
  have hh3 := hg.le
  have hb := big_bound hg
  unfold fillZH
  let TY := fun y => nestY (edgeStep g u val mt .Z) (-g.half) (g.half + 1) g.half y ([], h0)
  let TX := fun y x => nestX (edgeStep g u val mt .Z) (-g.half) g.half y x (TY y)
  let TZ := fun y x z => nestZ (edgeStep g u val mt .Z) (-g.half) y x z (TX y x)
  obtain ⟨s, e, hs⟩ := forLE_inv (lo := -g.half) (hi := g.half) (by omega) (s := ((EdgeState.mk 0 1 [] : EdgeState K), h0))
    (body := fun s y => forLE (-g.half) g.half s fun s x => do
      let s ← forLT (-g.half) g.half s fun s z => edgeBodyH g u .Z values mat s x y z
      some ({ s.1 with idx1 := u32 (s.1.idx1 + 1), idx2 := u32 (s.1.idx2 + 1) }, s.2))
    (fun y s => EInvH g 1 y (-g.half) (-g.half) (TY y) s)
    ⟨by simp [lz], by simp, by simp [TY, nestY_nil]⟩
    (by
      intro y s hy1 hy2 hs
      obtain ⟨s', e', hs'⟩ := forLE_inv (lo := -g.half) (hi := g.half) (by omega) (s := s)
        (body := fun s x => do
          let s ← forLT (-g.half) g.half s fun s z => edgeBodyH g u .Z values mat s x y z
          some ({ s.1 with idx1 := u32 (s.1.idx1 + 1), idx2 := u32 (s.1.idx2 + 1) }, s.2))
        (fun x s => EInvH g 1 y x (-g.half) (TX y x) s)
        (by refine ⟨hs.i1, hs.i2, ?_⟩; rw [hs.st]; exact (nestX_nil _ _ _ _ _).symm)
        (by
          intro x s hx1 hx2 hs
          obtain ⟨s', e', hs'⟩ := forLT_inv (lo := -g.half) (hi := g.half) (by omega) (s := s)
            (body := fun s z => edgeBodyH g u .Z values mat s x y z)
            (fun z s => EInvH g 1 y x z (TZ y x z) s)
            (by refine ⟨hs.i1, hs.i2, ?_⟩; rw [hs.st]; exact (nestZ_nil _ _ _ _ _).symm)
            (by
              intro z s hz1 hz2 hs
              have hp : InCube g.half ⟨x, y, z⟩ := ⟨⟨hx1, hx2⟩, ⟨hy1, hy2⟩, hz1, by simp only; omega⟩
              have hq : InCube g.half (edgeEnd .Z ⟨x, y, z⟩) := by
                unfold InCube edgeEnd shift; simp only; omega
              have j1 := vidx_of_lz hp hs.i1
              have j2 := vidx_edgeEnd .Z hp hq
              simp only at j2
              refine ⟨_, edgeBodyH_step hg h .Z hp hq j1 (by rw [j2, hs.i2, j1]), ?_, ?_, ?_⟩
              · have := hs.i1; simp only [lz] at this ⊢; push_cast; rw [this]; ring
              · simp only [hs.i2]
              · rw [hs.st]; exact Prod.mk.eta.trans (nestZ_succ (edgeStep g u val mt .Z) _ _ _ hz1 _).symm)
          rw [e']
          have hp : InCube g.half ⟨x, y, g.half⟩ := ⟨⟨hx1, hx2⟩, ⟨hy1, hy2⟩, by simp only; omega, by simp⟩
          have j1 := vidx_of_lz hp hs'.i1
          have j2 := Grid.vidx_lt hg hp
          have hi2 := hs'.i2
          have u1 : u32 (s'.1.idx1 + 1) = s'.1.idx1 + 1 := u32_of_lt (by omega)
          have u2 : u32 (s'.1.idx2 + 1) = s'.1.idx2 + 1 := u32_of_lt (by
            have := sq_lt hh3
            generalize (g.size + 1) * (g.size + 1) * (g.size + 1) = A at *
            generalize (g.size + 1) * (g.size + 1) = B at *
            omega)
          refine ⟨_, rfl, ?_, ?_, ?_⟩
          · simp only [u1]; push_cast; rw [hs'.i1]; unfold lz; rw [hh]; ring
          · simp only [u1, u2]; omega
          · dsimp only; rw [hs'.st]; exact (nestX_succ _ _ _ _ hx1 _).symm)
      refine ⟨s', e', ?_, hs'.i2, ?_⟩
      · rw [hs'.i1]; unfold lz; rw [hh]; ring
      · rw [hs'.st]; exact (nestY_succ _ _ _ _ hy1 _).symm)
  exact ⟨s, e, hs.st⟩

end

end Isomesh
