#!/usr/bin/env python3
"""Generate lean/Verif/Model/Classes.lean from the text of /repo/src/pygcode/gcodes.py
(the file is parsed with `ast`, nothing of pygcode is imported or run)."""
import ast
from fractions import Fraction
P = '/repo/src/pygcode/gcodes.py'
src = open(P).read()
tree = ast.parse(src)
groups = None
classes = []   # (name, parent, first, last, own)
for n in tree.body:
    if isinstance(n, ast.Assign) and n.targets[0].id == 'MODAL_GROUP_MAP':
        groups = ast.literal_eval(n.value)
def lc(c): return "'%s'" % c
def lchars(s): return '[' + ', '.join(lc(c) for c in sorted(s)) + ']'
def q(v):
    f = Fraction(repr(v))
    return '%d' % f.numerator if f.denominator == 1 else '%d / %d' % (f.numerator, f.denominator)
params = {}
def letters(v):
    if isinstance(v, ast.BinOp): return letters(v.left) | letters(v.right)
    if isinstance(v, ast.Call): return set(v.args[0].value) if v.args else set()
    if isinstance(v, ast.Attribute): return params[(v.value.id, v.attr)]
    raise Exception(ast.dump(v))
def word(v): return (v.args[0].value, v.args[1].value)
def lword(w): return "(%s, %s)" % (lc(w[0]), q(w[1]))
for n in tree.body:
    if not isinstance(n, ast.ClassDef): continue
    own = {}
    for b in n.body:
        if isinstance(b, ast.Assign):
            k, v = b.targets[0].id, b.value
            none = isinstance(v, ast.Constant) and v.value is None
            if k == 'word_key' and not none: own['wordKey'] = 'some ' + lword(word(v))
            elif k == 'default_word' and not none: own['defaultWord'] = 'some ' + lword(word(v))
            elif k == 'word_letter': own['letter'] = 'some ' + lc(v.value)
            elif k == 'word_value_configurable': own['configurable'] = 'some true' if v.value else 'some false'
            elif k in ('param_letters', 'modal_param_letters'):
                s = letters(v); params[(n.name, k)] = s
                own['params' if k == 'param_letters' else 'modalParams'] = 'some ' + lchars(s)
            elif k == 'modal_group':
                own['group'] = 'some none' if none else 'some (some %d)' % groups[v.slice.value]
            elif k == 'exec_order': own['order'] = 'some %d' % v.value
            elif k == 'coord_system_id' and not none: own['coordSys'] = 'some %d' % v.value
            elif k == 'unit_id': own['unitId'] = 'some %d' % v.value
            elif k == 'normal_axis' and not none: own['normalAxis'] = 'some ' + lc(v.value)
            elif k == 'plane_axes' and letters(v): own['planeAxes'] = 'some ' + lchars(letters(v))
            elif none or k in ('quat', 'normal', 'plane_axes'): pass
            else: raise Exception(k)
        elif isinstance(b, ast.FunctionDef) and b.name == 'word_matches':
            r = b.body[-1].value
            if isinstance(r, ast.Compare):
                own['matcher'] = 'some (.letter %s)' % lc(r.comparators[0].value)
            else:
                l, c = r.values
                L = l.comparators[0].value
                if isinstance(c.ops[0], ast.In):
                    own['matcher'] = 'some (.oneOf %s [%s])' % (lc(L), ', '.join(q(e.value) for e in c.comparators[0].elts))
                else:
                    own['matcher'] = 'some (.range %s (%s) (%s))' % (lc(L), q(c.left.value), q(c.comparators[1].value))
        elif isinstance(b, ast.FunctionDef) and b.name == '_process':
            own['proc'] = 'some ' + {'GCode': '.nothing', 'GCodeMotion': '.motion', 'GCodeRapidMove': '.rapid',
                'GCodeDwell': '.nothing', 'GCodeCancelCannedCycle': '.cancel', 'GCodeCannedCycle': '.canned'}[n.name]
        elif isinstance(b, ast.FunctionDef) and b.name == 'assert_params':
            own['checksArc'] = 'some true' if n.name == 'GCodeArcMove' else 'some false'
    parent = n.bases[0].id
    classes.append((n.name, parent, n.lineno, n.end_lineno, own))
names = {c[0] for c in classes}
short = lambda n: n[5:6].lower() + n[6:] if n != 'GCode' else 'root'
# acronyms
def sh(n):
    m = {'GCode': 'root', 'GCodeNURBS': 'nurbs', 'GCodeNURBSEnd': 'nurbsEnd', 'GCodeIO': 'io', 'GCodeSet': 'setData'}
    return m.get(n, short(n))
kids = {}
for c in classes: kids.setdefault(c[1], []).append(c[0])
def walk(n):
    yield n
    for k in sorted(kids.get(n, [])): yield from walk(k)
out = []
w = out.append
w('''import Verif.Model.Words

/-!
# The gcode class hierarchy of `src/pygcode/gcodes.py:140-1357`

Written by `tools/mkclasses.py` from the source text: one constructor per Python class (abstract
base classes included), `own` holds the attributes written in the class body itself, and attribute
access climbs the inheritance chain as Python does (all classes have one base).
-/

namespace Pygcode

/-- The Python classes deriving from `GCode` (and `GCode` itself, `root`), in source order;
`GCodeFooBar` is called `fooBar`. -/
inductive Cls''')
for c in classes: w('  | %s' % sh(c[0]))
w('''  deriving DecidableEq, Repr

/-- A `word_matches` function. -/
inductive Matcher
  /-- `w.letter == l` -/
  | letter (l : Char)
  /-- `(w.letter == l) and (lo <= w.value <= hi)` -/
  | range (l : Char) (lo hi : ℚ)
  /-- `(w.letter == l) and (w.value in vs)` -/
  | oneOf (l : Char) (vs : List ℚ)
  deriving DecidableEq

/-- What `_process` does to a machine (see `Machine.lean`). -/
inductive Proc
  /-- nothing: gcodes.py:339-341, 465-466 -/
  | nothing
  /-- gcodes.py:403-404 -/
  | motion
  /-- gcodes.py:411-412 -/
  | rapid
  /-- gcodes.py:525-526 -/
  | cancel
  /-- gcodes.py:545-561 -/
  | canned
  deriving DecidableEq, Repr

/-- Attributes assigned in a class body; `none` = not assigned there (inherited). -/
structure Own where
  /-- `word_key` (letter and value) -/
  wordKey : Option (Char × ℚ) := none
  /-- `default_word` -/
  defaultWord : Option (Char × ℚ) := none
  /-- `word_matches` -/
  matcher : Option Matcher := none
  /-- `word_letter` -/
  letter : Option Char := none
  /-- `word_value_configurable` -/
  configurable : Option Bool := none
  /-- `param_letters` -/
  params : Option (List Char) := none
  /-- `modal_param_letters` -/
  modalParams : Option (List Char) := none
  /-- `modal_group` (`some none` = set to `None`) -/
  group : Option (Option ℕ) := none
  /-- `exec_order` -/
  order : Option ℕ := none
  /-- `_process` -/
  proc : Option Proc := none
  /-- `assert_params` is the one of `GCodeArcMove` (gcodes.py:424-445) -/
  checksArc : Option Bool := none
  /-- `coord_system_id` -/
  coordSys : Option ℕ := none
  /-- `unit_id` -/
  unitId : Option ℕ := none
  /-- `normal_axis` -/
  normalAxis : Option Char := none
  /-- `plane_axes` -/
  planeAxes : Option (List Char) := none

namespace Cls

/-- The base class (the class statements of gcodes.py:140-1357). -/
def parent : Cls → Option Cls''')
for c in classes: w('  | .%s => %s' % (sh(c[0]), 'some .' + sh(c[1]) if c[1] in names else 'none'))
w('''
/-- Class bodies; the numbers are lines of gcodes.py. -/
def own : Cls → Own''')
for c in classes:
    w('  -- %d-%d %s' % (c[2], c[3], c[0]))
    w('  | .%s =>\n    { %s }' % (sh(c[0]), ('\n      '.join('%s := %s' % kv for kv in c[4].items()))) if c[4] else '  | .%s => {}' % sh(c[0]))
w('''
/-- All classes, in the order of `_subclasses(GCode)` (gcodes.py:1362-1378): depth first, siblings
by name. -/
def all : List Cls :=
  [''' + ',\n   '.join('.' + sh(n) for n in walk('GCode')) + ''']

end Cls

end Pygcode''')
open('/verif/lean/Verif/Model/Classes.lean', 'w').write('\n'.join(out) + '\n')
print(len(classes))

# class names, for `repr`
nm = ['''import Verif.Model.Classes

/-!
# Names of the gcode classes (`__class__.__name__`), written by `tools/mkclasses.py`
-/

namespace Pygcode

/-- The Python name of a class (gcodes.py:140-1357), as printed by `repr` (gcodes.py:185-196). -/
def Cls.pyName : Cls → String''']
for c in classes: nm.append('  | .%s => "%s"' % (sh(c[0]), c[0]))
nm.append('\nend Pygcode\n')
open('/verif/lean/Verif/Model/ClassNames.lean', 'w').write('\n'.join(nm))

# docstrings, and the listings in __init__.py
docs = {n.name: ast.get_docstring(n, clean=False) for n in tree.body if isinstance(n, ast.ClassDef)}
def lstr(s): return '"' + s.replace('\\', '\\\\').replace('"', '\\"').replace('\n', '\\n') + '"'
dc = ['''import Verif.Model.Classes
import Verif.Model.Chars

/-!
# Docstrings of the gcode classes, written by `tools/mkclasses.py`
-/

namespace Pygcode

/-- `cls.__doc__` (gcodes.py:140-1357); `none` for `None`.  Docstrings are not inherited. -/
def Cls.doc : Cls → Option (List Char)''']
for c in classes: dc.append('  | .%s => %s' % (sh(c[0]), 'none' if docs[c[0]] is None else 'some (chars! %s)' % lstr(docs[c[0]])))
dc.append('''
/-- The classes deriving from `GCode` in the order of their definition (gcodes.py:347-1357). -/
def Cls.source : List Cls :=
  [''' + ',\n   '.join('.' + sh(c[0]) for c in classes if c[0] != 'GCode') + ']')
dc.append('\nend Pygcode\n')
open('/verif/lean/Verif/Model/ClassDocs.lean', 'w').write('\n'.join(dc))

nc = ['''import Verif.Model.ClassNames
import Verif.Model.Chars

/-! The names of the classes as lists of characters, written by `tools/mkclasses.py`. -/

namespace Pygcode

/-- The characters of `Cls.pyName`. -/
def Cls.nameChars : Cls → List Char''']
for c in classes: nc.append('  | .%s => chars! %s' % (sh(c[0]), lstr(c[0])))
nc.append('''
/-- The classes by name. -/
def Cls.byName : List Cls :=
  [''' + ',\n   '.join('.' + sh(c) for c in sorted(names)) + ''']

theorem Cls.pyName_toList (c : Cls) : c.pyName.toList = c.nameChars := by
  cases c <;> exact String.toList_ofList

end Pygcode
''')
open('/verif/lean/Verif/Lemmas/ClassChars.lean', 'w').write('\n'.join(nc))

init = open('/repo/src/pygcode/__init__.py').read()
itree = ast.parse(init)
exported = [a.value for n in itree.body if isinstance(n, ast.Assign) and n.targets[0].id == '__all__' for a in n.value.elts]
imported = [a.name for n in itree.body if isinstance(n, ast.ImportFrom) for a in n.names]
ilines = init.split('\n')
first = [k for k, x in enumerate(ilines) if '_gcode_class_infostr as x' in x][0] + 1
last = first
while ilines[last].startswith('    #'): last += 1
def charss(l): return '[' + ',\n   '.join('chars! ' + lstr(x) for x in l) + ']'
ls = ['''import Verif.Model.Chars

/-!
# The listings written in `src/pygcode/__init__.py`, copied by `tools/mkclasses.py`

Data for the statements of `Props/Listing.lean`: nothing here is taken from the model.
-/

namespace Pygcode

namespace Listings

set_option maxRecDepth 10000 in
/-- The comment lines of __init__.py:%d-%d, said to be the output of
`_gcode_class_infostr(prefix='    # ')` (__init__.py:%d). -/
def comment : List (List Char) :=
  %s

set_option maxRecDepth 10000 in
/-- `__all__` (__init__.py). -/
def exported : List (List Char) :=
  %s

set_option maxRecDepth 10000 in
/-- The names in the import statements of __init__.py. -/
def imported : List (List Char) :=
  %s

end Listings

end Pygcode
''' % (first + 1, last, first, charss(ilines[first:last]), charss(exported), charss(imported))]
open('/verif/lean/Verif/Spec/Listings.lean', 'w').write('\n'.join(ls))
