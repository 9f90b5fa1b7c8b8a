import Verif.Model.Connections
import Verif.Spec.Tree
import Verif.Spec.Graph
import Verif.Spec.Concretize

/-! # Specification vocabulary for connections -/

namespace Verif.ConnSpec
open TreeSpec

variable {β : Type}

/-- The reserved words can be told apart and do not contain the separator. -/
structure GoodCfg (cfg : Conn.Cfg) : Prop where
  inSep : cfg.sep ∉ cfg.inKey
  outSep : cfg.sep ∉ cfg.outKey
  diff : cfg.inKey ≠ cfg.outKey

/-- `m` is the path of a module of the tree. Its first component is not a reserved word. -/
def IsModule (cfg : Conn.Cfg) (tree : Tree β) (m : List Str) : Prop :=
  m ≠ [] ∧ m.head? ≠ some cfg.inKey ∧ m.head? ≠ some cfg.outKey ∧ ∃ b, Tree.get tree m = .ok (.leaf b)

/-- The string `s` means: the place `r` inside the output of `m`, where `m` is the model input or a module. -/
def Source (cfg : Conn.Cfg) (tree : Tree β) (s : Str) (m r : List Str) : Prop :=
  splitOn cfg.sep s = m ++ r ∧ Proper (m ++ r) ∧ (m = [cfg.inKey] ∨ IsModule cfg tree m)

/-- The string `s` means: the place `r` inside the input of `m`, where `m` is the model output or a module. -/
def Target (cfg : Conn.Cfg) (tree : Tree β) (s : Str) (m r : List Str) : Prop :=
  splitOn cfg.sep s = m ++ r ∧ Proper (m ++ r) ∧ (m = [cfg.outKey] ∨ IsModule cfg tree m)

/-- Every connection goes from a source to targets, and a source is listed once. -/
structure WellFormed (cfg : Conn.Cfg) (tree : Tree β) (conn : List (Str × List Str)) : Prop where
  keys : (conn.map Prod.fst).Nodup
  source : ∀ kv ∈ conn, ∃ m r, Source cfg tree kv.1 m r
  target : ∀ kv ∈ conn, ∀ v ∈ kv.2, ∃ m r, Target cfg tree v m r

/-- All requested edges, in order. -/
def edges (conn : List (Str × List Str)) : List (Str × Str) := conn.flatMap fun kv => kv.2.map fun v => (kv.1, v)

end Verif.ConnSpec
