/-!
# Insertion-ordered dictionaries

Python dictionaries as association lists: `set` keeps the position of an existing key and appends a new one,
`erase` removes a key.  Used for attributes, namespace maps, source maps, error maps and pydantic's field data.
-/

namespace PXml

/-- A Python `dict`, as the list of its items in insertion order. -/
abbrev Dict (α β : Type) := List (α × β)

namespace Dict

variable {α β : Type} [DecidableEq α]

/-- `d.get(k)` -/
def get? : Dict α β → α → Option β
  | [], _ => none
  | (k', v) :: d, k => if k' = k then some v else get? d k

/-- `d[k] = v`: overwrites in place, or appends. -/
def set : Dict α β → α → β → Dict α β
  | [], k, v => [(k, v)]
  | (k', v') :: d, k, v => if k' = k then (k, v) :: d else (k', v') :: set d k v

/-- `d.pop(k, None)`, the remaining dictionary. -/
def erase : Dict α β → α → Dict α β
  | [], _ => []
  | (k', v') :: d, k => if k' = k then d else (k', v') :: erase d k

/-- `list(d)` -/
def keys (d : Dict α β) : List α := d.map Prod.fst

/-- `{**a, **b}` / `dict(a, **b)` / `a.update(b)` -/
def update (a b : Dict α β) : Dict α β := b.foldl (fun d kv => d.set kv.1 kv.2) a

/-- `{k: v for k, v in kvs}` -/
def ofItems (kvs : List (α × β)) : Dict α β := update [] kvs

/-- Every key occurs once (true of every Python dict). -/
def WF (d : Dict α β) : Prop := d.keys.Nodup

instance (d : Dict α β) : Decidable d.WF := inferInstanceAs (Decidable d.keys.Nodup)

end Dict
end PXml
