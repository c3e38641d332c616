/-
Model of the scenario tree, tree_ocp_qp/scenario_tree.c.
-/
import Verif.Blas

namespace Hpipm

/-- `ipow`, tree_ocp_qp/scenario_tree.c:42-53 (state: result, base, exp). -/
def ipowGo (result base : ℤ) (exp : ℕ) : ℤ :=
  if exp ≠ 0 then
    ipowGo (if exp % 2 = 1 then result * base else result) (base * base) (exp / 2)
  else result
termination_by exp

/-- `ipow(base, exp)`, tree_ocp_qp/scenario_tree.c:42-53 -/
def ipow (base : ℤ) (exp : ℕ) : ℤ := ipowGo 1 base exp

/-- `sctree_node_number`, tree_ocp_qp/scenario_tree.c:57-65 (C integer division truncates). -/
def sctreeNodeNumber (md Nr Nh : ℕ) : ℤ :=
  if md = 1 then (Nh : ℤ) + 1
  else ((Nh : ℤ) - Nr) * ipow md Nr + Int.tdiv (ipow md (Nr + 1) - 1) ((md : ℤ) - 1)

/-- `struct node` (include/hpipm_tree.h); the pointer `kids` is an offset into the kids array. -/
structure Node where
  kids : ℕ
  idx : ℕ
  dad : ℤ
  nkids : ℕ
  stage : ℕ
  real : ℤ
  idxkid : ℕ

/-- working state of `sctree_create`: the two arrays (both of length Nn), the counters, and a flag
that becomes false as soon as a write or read outside an array happens. -/
structure TreeSt where
  node : ℕ → Node
  kidsArr : ℕ → ℕ
  tkids : ℕ
  idxkid : ℕ
  ok : Bool

/-- creation of one kid, tree_ocp_qp/scenario_tree.c:132-140 (several kids) and 145-152 (one kid):
`real` is `ii` in the first case and inherited in the second. -/
def mkKid (Nn idx stage : ℕ) (off ii : ℕ) (real : ℤ) (s : TreeSt) : TreeSt :=
  let ik := s.idxkid + 1
  { s with
    idxkid := ik
    kidsArr := upd s.kidsArr (off + ii) ik
    node := upd s.node ik { s.node ik with idx := ik, stage := stage + 1, dad := idx, real := real,
                                           idxkid := ii }
    ok := s.ok && decide (ik < Nn) && decide (off + ii < Nn) }

/-- body of the loop over nodes, tree_ocp_qp/scenario_tree.c:110-155 -/
def treeBody (md Nr Nh Nn : ℕ) (idx : ℕ) (s : TreeSt) : TreeSt :=
  let n0 := s.node idx
  let stage := n0.stage
  let nk := if stage < Nr then md else if stage < Nh then 1 else 0
  let s := { s with node := upd s.node idx { n0 with nkids := nk }, ok := s.ok && decide (idx < Nn) }
  if nk > 0 then
    let off := s.tkids
    let s := { s with node := upd s.node idx { s.node idx with kids := off }, tkids := s.tkids + nk }
    if nk > 1 then
      loop nk (fun ii s => mkKid Nn idx stage off ii ii s) s
    else
      mkKid Nn idx stage off 0 (s.node idx).real s
  else s

/-- the root, tree_ocp_qp/scenario_tree.c:101-107 -/
def treeInit (node0 : ℕ → Node) (kids0 : ℕ → ℕ) : TreeSt :=
  { node := upd node0 0 { node0 0 with idx := 0, stage := 0, dad := -1, real := -1, idxkid := 0 }
    kidsArr := kids0, tkids := 0, idxkid := 0, ok := true }

/-- `sctree_create`, tree_ocp_qp/scenario_tree.c:82-159, on memory with arbitrary initial contents. -/
def sctreeCreate (md Nr Nh : ℕ) (node0 : ℕ → Node) (kids0 : ℕ → ℕ) : TreeSt :=
  let Nn := (sctreeNodeNumber md Nr Nh).toNat
  loop Nn (treeBody md Nr Nh Nn) (treeInit node0 kids0)

end Hpipm
