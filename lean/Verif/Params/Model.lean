/-!
# Model of the parameter trees

Models `Parameters.__ior__` (`lib/fluidsim_core/params.py:151-209`), `fix_old_params` and
`merge_params` (`fluidsim/base/params.py:18-76`).

A `ParamContainer` (library fluiddyn) is a node with named attributes (`_key_attribs`) and named
children (`_tag_children`).  What is used of that library: `_set_attrib` sets or adds an
attribute, `_set_child(tag, attribs)` adds a child with these attributes and no children,
`container.key = value` raises `AttributeError` if `key` is not an attribute, and
`_make_dict` without its internal entries is the dictionary of the attributes.
Attributes and children are separate maps here (a name is not used for both).  The `set`
differences are iterated in list order (Python's order is arbitrary, and not observable through
look-ups).
-/

namespace Verif.Params

mutual
  inductive Node (V : Type) where
    | mk (attribs : List (String × V)) (children : Forest V)
  inductive Forest (V : Type) where
    | nil
    | cons (tag : String) (n : Node V) (rest : Forest V)
end

variable {V : Type}

def lookupAttr (l : List (String × V)) (k : String) : Option V :=
  match l with
  | [] => none
  | (k', v) :: l => if k' = k then some v else lookupAttr l k

def Forest.find : Forest V → String → Option (Node V)
  | .nil, _ => none
  | .cons t n rest, k => if t = k then some n else rest.find k

/-- `params1[child] = value` for an existing child -/
def Forest.update : Forest V → String → (Node V → Node V) → Forest V
  | .nil, _, _ => .nil
  | .cons t n rest, k, f => if t = k then .cons t (f n) rest else .cons t n (rest.update k f)

def Forest.append : Forest V → Forest V → Forest V
  | .nil, g => g
  | .cons t n rest, g => .cons t n (rest.append g)

def Node.attribs : Node V → List (String × V)
  | .mk a _ => a
def Node.children : Node V → Forest V
  | .mk _ c => c

/-- params.py:176-182: the attributes of `params2` that are missing in `params1` are added. -/
def addMissingAttribs (a1 a2 : List (String × V)) : List (String × V) :=
  a1 ++ a2.filter (fun p => (lookupAttr a1 p.1).isNone)

/-- params.py:185-203: the missing children, with their attributes only. -/
def missingChildren (c1 : Forest V) : Forest V → Forest V
  | .nil => .nil
  | .cons t n rest =>
    if (c1.find t).isNone then .cons t (.mk n.attribs .nil) (missingChildren c1 rest)
    else missingChildren c1 rest

mutual
  /-- params.py:172-209 `params1 |= params2` for two instances of `Parameters` -/
  def merge : Node V → Node V → Node V
    | .mk a1 c1, .mk a2 c2 =>
      .mk (addMissingAttribs a1 a2) (mergeChildren (c1.append (missingChildren c1 c2)) c2)
  /-- params.py:205-207: `for child in params2._tag_children: params1[child] |= params2[child]` -/
  def mergeChildren : Forest V → Forest V → Forest V
    | c1, .nil => c1
    | c1, .cons t n2 rest => mergeChildren (c1.update t (fun n1 => merge n1 n2)) rest
end

/-- A Python object given as right operand. -/
inductive Operand (V : Type)
  | parameters (n : Node V)
  | other

inductive Err
  | typeError
  | attributeError
  deriving DecidableEq

/-- params.py:167-170 and the rest -/
def ior (self : Node V) : Operand V → Except Err (Node V)
  | .other => .error .typeError
  | .parameters n => .ok (merge self n)

/-! ## `fix_old_params` -/

/-- `_set_attrib` -/
def setAttr (l : List (String × V)) (k : String) (v : V) : List (String × V) :=
  match l with
  | [] => [(k, v)]
  | (k', v') :: l => if k' = k then (k, v) :: l else (k', v') :: setAttr l k v

def Node.setAttrib : Node V → String → V → Node V
  | .mk a c, k, v => .mk (setAttr a k v) c

/-- base/params.py:20-31: `params.FORCING -> params.forcing.enable` -/
def fixForcing : Node V → Node V
  | .mk a c =>
    match lookupAttr a "FORCING" with
    | none => .mk a c
    | some v => .mk a (c.update "forcing" (fun n => n.setAttrib "enable" v))

/-- `params.oper.NO_SHEAR_MODES = value`: only if the attribute exists -/
def Node.setExisting : Node V → String → V → Node V
  | .mk a c, k, v => if (lookupAttr a k).isSome then .mk (setAttr a k v) c else .mk a c

/-- base/params.py:33-42 -/
def fixShear : Node V → Node V
  | .mk a c =>
    match lookupAttr a "NO_SHEAR_MODES" with
    | none => .mk a c
    | some v => .mk a (c.update "oper" (fun n => n.setExisting "NO_SHEAR_MODES" v))

/-- base/params.py:18-42 -/
def fixOldParams (n : Node V) : Node V := fixShear (fixForcing n)

/-! ## `merge_params` -/

/-- values of parameters, as far as `merge_params` looks at them -/
inductive PVal
  | none
  | str (s : String)
  | other (id : Nat)
  deriving DecidableEq

/-- base/params.py:64-73.  `none`: `method.startswith` raises `AttributeError`. -/
def isOldFft : PVal → Option Bool
  | .none => some true
  | .str s =>
    if s.toList = [] then some true
    else some (s ≠ "default" ∧
      ¬ ["fft2d.", "fft3d.", "fluidfft."].any (fun p => p.toList.isPrefixOf s.toList))
  | .other _ => Option.none

/-- base/params.py:58-76 -/
def mergeParams (n : Node PVal) (others : List (Node PVal)) : Except Err (Node PVal) :=
  let n := others.foldl merge n
  match n.children.find "oper" with
  | Option.none => .ok n
  | some oper =>
    match lookupAttr oper.attribs "type_fft" with
    | Option.none => .ok n
    | some method =>
      match isOldFft method with
      | Option.none => .error .attributeError
      | some false => .ok n
      | some true =>
        .ok (.mk n.attribs (n.children.update "oper"
          (fun o => o.setAttrib "type_fft" (.str "default"))))

end Verif.Params
