import Verif.Model.Forward
import Verif.Spec.Connections
import Verif.Spec.Forward

/-!
# Specification vocabulary for non-sequential models

The connections are read as equations between the outputs of the modules; no order of execution occurs here.
-/

namespace Verif.DataflowSpec
open Relation TreeSpec ConnSpec PathSpec ForwardSpec

variable {M P S A : Type}

/-- Every module declares the shape it computes. -/
def Declares {K : Type} (sig : Forward.Sig M P S K A) (shp : A → Forward.Shape) : Prop :=
  ∀ m p x t s k y s', sig.call m p x t s k = .ok (y, s') → sig.outShape m (x.map shp) = .ok (y.map shp)

/-- The assumptions on names: the separator is not a digit and not in `input` and `output`; every connection goes from a
source to targets; numbers are written without leading zeros; the reserved words are not the beginning of a longer name. -/
structure Names (sep : Char) (modules : Tree M) (conn : List (Str × List Str)) : Prop where
  digit : sep.isDigit = false
  inSep : sep ∉ "input".toList
  outSep : sep ∉ "output".toList
  wf : WellFormed (Forward.nsCfg sep) modules conn
  canonSrc : ∀ kv ∈ conn, Canonical (splitOn sep kv.1)
  canonTgt : ∀ e ∈ edges conn, Canonical (splitOn sep e.2)
  cleanSrc : ∀ kv ∈ conn, ∀ w, w = "input".toList ∨ w = "output".toList → w <+: (splitOn sep kv.1).headD [] →
    (splitOn sep kv.1).headD [] = w
  cleanTgt : ∀ e ∈ edges conn, "output".toList <+: (splitOn sep e.2).headD [] → (splitOn sep e.2).headD [] = "output".toList

/-- The new identifiers: not empty, without separator, not a number with leading zeros. -/
structure FreshOk (sep : Char) (fresh : Str → Nat → Nat → Str) : Prop where
  ne : ∀ o c i, fresh o c i ≠ []
  sepFree : ∀ o c i, sep ∉ fresh o c i
  canon : ∀ o c i, Canonical [fresh o c i]

/-- Some connection leads from (the output of) `a` to (the input of) `b`. -/
def Feeds (cfg : Conn.Cfg) (modules : Tree M) (conn : List (Str × List Str)) (a b : List Str) : Prop :=
  ∃ e ∈ edges conn, ∃ r r', Source cfg modules e.1 a r ∧ Target cfg modules e.2 b r'

/-- `m` is a module on some route from the model input to the model output. -/
def Scheduled (cfg : Conn.Cfg) (modules : Tree M) (conn : List (Str × List Str)) (m : List Str) : Prop :=
  IsModule cfg modules m ∧ ReflTransGen (Feeds cfg modules conn) [cfg.inKey] m ∧
    ReflTransGen (Feeds cfg modules conn) m [cfg.outKey]

/-- The connections that deserve to be accepted: the output is reached, no module on a route lies on a cycle, and whatever
feeds a module on a route (or the output) is itself reached from the input. -/
structure Accepted (cfg : Conn.Cfg) (modules : Tree M) (conn : List (Str × List Str)) : Prop where
  connected : ReflTransGen (Feeds cfg modules conn) [cfg.inKey] [cfg.outKey]
  acyclic : ∀ m, Scheduled cfg modules conn m → ¬ TransGen (Feeds cfg modules conn) m m
  fed : ∀ m, Scheduled cfg modules conn m ∨ m = [cfg.outKey] → ∀ a, Feeds cfg modules conn a m →
    ReflTransGen (Feeds cfg modules conn) [cfg.inKey] a

/-- The connections `input → ps[0] → ps[1] → … → output`. -/
def chainConn (sep : Char) (ps : List (List Str)) : List (Str × List Str) :=
  List.zipWith (fun a b => (joinWith sep a, [joinWith sep b])) (["input".toList] :: ps) (ps ++ [["output".toList]])

/-- `ps` are paths of different modules, with names as in `Names`, none of them one of the new identifiers. -/
structure ChainOk (sep : Char) (fresh : Str → Nat → Nat → Str) (modules : Tree M) (ps : List (List Str)) : Prop where
  digit : sep.isDigit = false
  inSep : sep ∉ "input".toList
  outSep : sep ∉ "output".toList
  nodup : ps.Nodup
  mods : ∀ p ∈ ps, IsModule (Forward.nsCfg sep) modules p
  comps : ∀ p ∈ ps, ∀ w ∈ p, w ≠ [] ∧ sep ∉ w
  canon : ∀ p ∈ ps, Canonical p
  clean : ∀ p ∈ ps, ¬ "input".toList <+: p.headD [] ∧ ¬ "output".toList <+: p.headD []
  uniform : ∀ p ∈ ps, ∀ q ∈ ps, Uniform p q
  new : ∀ p ∈ ["output".toList] :: ps, ∀ w ∈ p, ∀ o c i, w ≠ fresh o c i

/-- The source string `k` denotes the value `a`, given the outputs of all modules. -/
def Reads (cfg : Conn.Cfg) (modules : Tree M) (val : List Str → Tree A) (k : Str) (a : Tree A) : Prop :=
  ∃ m r, Source cfg modules k m r ∧ Tree.get (val m) r = .ok a

mutual
/-- Every leaf `k` replaced by the tree `f k`. -/
def subst (f : Str → Tree A) : Tree Str → Tree A
  | .leaf k => f k
  | .none => .none
  | .list ts => .list (substL f ts)
  | .tuple ts => .tuple (substL f ts)
  | .dict kvs => .dict (substD f kvs)
/-- `subst` on a list. -/
def substL (f : Str → Tree A) : List (Tree Str) → List (Tree A)
  | [] => []
  | t :: ts => subst f t :: substL f ts
/-- `subst` on a dictionary. -/
def substD (f : Str → Tree A) : List (Str × Tree Str) → List (Str × Tree A)
  | [] => []
  | (k, t) :: ts => (k, subst f t) :: substD f ts
end

/-- `inp` is the tree of source strings `req` with every string replaced by what it denotes. -/
def Fills (rd : Str → Tree A → Prop) (req : Tree Str) (inp : Tree A) : Prop :=
  ∃ f, (∀ k ∈ leaves req, rd k (f k)) ∧ inp = subst f req

/-- The tree `req` holds the sources of the connections (after numbering of doubly used slots) that lead to `m`, each in
its slot, and nothing else. -/
structure Holds (sep : Char) (R : List (Str × List Str)) (m : List Str) (req : Tree Str) : Prop where
  slot : ∀ k v r, (k, v) ∈ edges R → splitOn sep v = m ++ r → Tree.get req r = .ok (.leaf k)
  only : ∀ q k, At req q k → ∃ v r, (k, v) ∈ edges R ∧ splitOn sep v = m ++ r ∧ Spells r q

/-- The dataflow equations. `val m` is the output of module `m`, `req m` the layout of its input, `news m` the new state
of `m`. -/
structure Dataflow (cfg : Conn.Cfg) (modules : Tree M) (params : Tree P) (state : Tree S)
    (call : M → P → Tree A → S → Except PyErr (Tree A × S)) (sched : List Str → Prop) (req : List Str → Tree Str)
    (data : Tree A) (val : List Str → Tree A) (news : List Str → Option S) (out : Tree A) : Prop where
  input : val [cfg.inKey] = data
  step : ∀ m, sched m → ∃ b p s inp s', Tree.get modules m = .ok (.leaf b) ∧ Tree.get params m = .ok (.leaf p) ∧
    Tree.get state m = .ok (.leaf s) ∧ Fills (Reads cfg modules val) (req m) inp ∧ call b p inp s = .ok (val m, s') ∧
    news m = some s'
  output : Fills (Reads cfg modules val) (req [cfg.outKey]) out

/-- The state tree `st'` is `state` with the states of the scheduled modules replaced by `news`. -/
structure Updates (state st' : Tree S) (sched : List Str → Prop) (news : List Str → Option S) : Prop where
  new : ∀ m, sched m → ∃ s', news m = some s' ∧ Tree.get st' m = .ok (.leaf s')
  frame : ∀ q, Proper q → (∀ m, sched m → Diverge m q) → Tree.get st' q = Tree.get state q

end Verif.DataflowSpec
