import Verif.Model.NWNested

/-!
# Memory that is reserved but not written

Client-level vocabulary: two runs of the same weighted program in which the memory reserved for
`weights` happens to contain different numbers.  The vector `weights` (nwclique.h:57 and 74) is only
reserved (nw_dfs.cpp:12, nw_enumerate.cpp:80), once per search or iterator, and used for every root;
the places that the current root does not write hold whatever an earlier root or the allocator left
there.  The model takes the numbers found in the memory as the argument `junk`.
-/

namespace CM

variable {R : Type} [Zero R] [Add R] [Sub R] [NatCast R] [LT R] [LE R] [DecidableLT R]
  [DecidableLE R]

/-- The same action in two runs that find different numbers in the memory they reserve. (The calls
of core/wrap_pygraph.cpp:81-100.) -/
inductive WAct.SameButMemory : WAct R → WAct R → Prop
  /-- `next(it)` (pyiterator.cpp:32-42) -/
  | next : SameButMemory .next .next
  /-- `get_max_clique` (pynwgraph.cpp:44-64) -/
  | search (srt : List (NWG.WData R) → List (NWG.WData R)) (junk junk' : Nat → R)
      (a : PyNW.Args R) :
      SameButMemory (.call (.search srt junk a)) (.call (.search srt junk' a))
  /-- `reset_search` (pynwgraph.cpp:37-42) -/
  | reset : SameButMemory (.call .reset) (.call .reset)
  /-- `list(G.all_cliques(W))` (pyiterator.cpp:32-42) -/
  | list (junk junk' : Nat → R) (W : R) :
      SameButMemory (.call (.list junk W)) (.call (.list junk' W))

end CM
