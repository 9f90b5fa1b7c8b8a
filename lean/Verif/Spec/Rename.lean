import Verif.Spec.Dataflow

/-!
# Specification vocabulary for graph models that differ only in names and order

Two models are compared through the connections they request; no path is concretised and no order of execution occurs here.
-/

namespace Verif.RenameSpec
open TreeSpec ConnSpec PathSpec ForwardSpec DataflowSpec

variable {M P S K A β : Type}

/-- The modules do not see the order of the entries of a dictionary they are given: with another order they return the same up to the order of
entries, and the same state. They return dictionaries without repeated keys. -/
structure OrderBlind (sig : Forward.Sig M P S K A) : Prop where
  keys : ∀ m p x t s k y s', KeysOk x → sig.call m p x t s k = .ok (y, s') → KeysOk y
  blind : ∀ m p x x' t s k y s', KeysOk x → KeysOk x' → x.norm = x'.norm → sig.call m p x t s k = .ok (y, s') →
    ∃ y', sig.call m p x' t s k = .ok (y', s') ∧ y'.norm = y.norm

/-- No place is requested twice, or as part of another requested place, and no requested name is one of the new identifiers. -/
structure Clear (sep : Char) (fresh : Str → Nat → Nat → Str) (conn : List (Str × List Str)) : Prop where
  free : PrefixFree ((edges conn).map fun e => splitOn sep e.2)
  new : ∀ e ∈ edges conn, ∀ w ∈ splitOn sep e.2, ∀ o c i, w ≠ fresh o c i

/-- The connection `e'` is the connection `e` between the corresponding modules, from and to the same places inside their outputs and inputs. -/
def SameEdge (cfg : Conn.Cfg) (modules modules' : Tree M) (rel : List Str → List Str → Prop) (e e' : Str × Str) : Prop :=
  ∃ a r b s a' b', rel a a' ∧ rel b b' ∧ Source cfg modules e.1 a r ∧ Target cfg modules e.2 b s ∧
    Source cfg modules' e'.1 a' r ∧ Target cfg modules' e'.2 b' s

/-- The output is connected to `m`, directly or through other modules. -/
def Leads (cfg : Conn.Cfg) (modules : Tree M) (conn : List (Str × List Str)) (m : List Str) : Prop :=
  Relation.ReflTransGen (Feeds cfg modules conn) m [cfg.outKey]

/-- The connection ends at the output or at a module that leads there. -/
def Used (cfg : Conn.Cfg) (modules : Tree M) (conn : List (Str × List Str)) (e : Str × Str) : Prop :=
  ∃ b s, Target cfg modules e.2 b s ∧ Leads cfg modules conn b

/-- `rel` relates the module paths of one model with those of another, one to one, such that the used connections correspond to each other. Modules
that do not lead to the output need not be related; either model may have its own. -/
structure Renames (cfg : Conn.Cfg) (modules modules' : Tree M) (conn conn' : List (Str × List Str)) (rel : List Str → List Str → Prop) : Prop where
  input : rel [cfg.inKey] [cfg.inKey]
  output : rel [cfg.outKey] [cfg.outKey]
  left : ∀ a b c, rel a c → rel b c → a = b
  right : ∀ a b c, rel a b → rel a c → b = c
  mod : ∀ a b, rel a b → (IsModule cfg modules a ↔ IsModule cfg modules' b)
  forth : ∀ e ∈ edges conn, Used cfg modules conn e → ∃ e' ∈ edges conn', SameEdge cfg modules modules' rel e e'
  back : ∀ e' ∈ edges conn', Used cfg modules' conn' e' → ∃ e ∈ edges conn, SameEdge cfg modules modules' rel e e'

/-- Corresponding modules have the same entry in the two trees. -/
def Agree (cfg : Conn.Cfg) (modules : Tree M) (rel : List Str → List Str → Prop) (t t' : Tree β) : Prop :=
  ∀ m m', rel m m' → IsModule cfg modules m → Tree.get t' m' = Tree.get t m

end Verif.RenameSpec
