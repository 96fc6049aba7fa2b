import Verif.Model.Lifetime

/-!
# The same programs if nothing were ever destroyed

A specification of what a program with deleted variables should see: the objects stay where they
are for ever, and nothing is counted.  Only the vocabulary of programs (`LAct`, `IterClass`, `Ref`,
`IterObj`) is taken from the model.
-/

namespace CM.Spec

variable {P E K C A : Type}

/-- Variables, graphs, enumerators, and iterator objects. -/
structure Forever (P E : Type) where
  names : List (Option Ref)
  graphs : List P
  ens : List E
  its : List IterObj

namespace Forever

def empty : Forever P E := ⟨[], [], [], []⟩

/-- What the action does and answers. -/
def step (L : IterClass P E K C A) (s : Forever P E) : LAct P K C → M (Forever P E × List A)
  | .load p =>
    .ok ({ s with names := s.names ++ [some (.graph s.graphs.length)], graphs := s.graphs ++ [p] }, [])
  | .all x k =>
    match s.names[x]? with
    | some (some (.graph i)) =>
      match s.graphs[i]? with
      | none => .error .ub
      | some pg =>
        match L.new pg k with
        | .ok e =>
          .ok ({ s with
            names := s.names ++ [some (.iter s.its.length)]
            ens := s.ens ++ [e]
            its := s.its ++ [⟨i, s.ens.length⟩] }, [])
        | .error .throw => .ok ({ s with names := s.names ++ [none] }, [])
        | .error f => .error f
    | _ => .error .throw
  | .iter x =>
    match s.names[x]? with
    | some (some (.iter j)) =>
      match s.its[j]? with
      | none => .error .ub
      | some o =>
        .ok ({ s with names := s.names ++ [some (.iter s.its.length)], its := s.its ++ [o] }, [])
    | _ => .error .throw
  | .copy x =>
    match s.names[x]? with
    | some (some r) => .ok ({ s with names := s.names ++ [some r] }, [])
    | _ => .error .throw
  | .next x =>
    match s.names[x]? with
    | some (some (.iter j)) =>
      match s.its[j]? with
      | none => .error .ub
      | some o =>
        match s.ens[o.en]?, s.graphs[o.graph]? with
        | some e, some pg =>
          match L.next pg e with
          | .error f => .error f
          | .ok (pg, e, a) =>
            .ok ({ s with ens := s.ens.set o.en e, graphs := s.graphs.set o.graph pg }, [a])
        | _, _ => .error .ub
    | _ => .error .throw
  | .call x c =>
    match s.names[x]? with
    | some (some (.graph i)) =>
      match s.graphs[i]? with
      | none => .error .ub
      | some pg =>
        match L.call pg c with
        | .error f => .error f
        | .ok (pg, a) => .ok ({ s with graphs := s.graphs.set i pg }, [a])
    | _ => .error .throw
  | .del x =>
    match s.names[x]? with
    | some (some _) => .ok ({ s with names := s.names.set x none }, [])
    | _ => .error .throw

/-- A whole program. -/
def run (L : IterClass P E K C A) : List (LAct P K C) → Forever P E → M (Forever P E × List A)
  | [], s => .ok (s, [])
  | x :: xs, s => do
    let (s, a) ← step L s x
    let (s, as) ← run L xs s
    .ok (s, a ++ as)

end Forever

end CM.Spec
