#!/usr/bin/env python3
"""Generate lean/Verif/Model/Tables.lean from /repo/src/parser/tables.rs (read as text)."""
import re
src = open('/repo/src/parser/tables.rs', encoding='utf-8').read()
lines = src.split('\n')

def fn_body(name):
    i = src.index('fn ' + name)
    j = src.index('\n}\n', i)
    lo = src.count('\n', 0, i) + 1
    hi = src.count('\n', 0, j) + 2
    return src[i:j], lo, hi

def ranges(name):
    body, lo, hi = fn_body(name)
    rs = []
    for m in re.finditer(r"'\\u\{([0-9A-F]+)\}'(?:\.\.='\\u\{([0-9A-F]+)\}')?", body):
        a = int(m.group(1), 16); b = int(m.group(2), 16) if m.group(2) else a
        rs.append((a, b))
    rs.sort()
    out = []
    for a, b in rs:
        if out and a <= out[-1][1] + 1: out[-1] = (out[-1][0], max(b, out[-1][1]))
        else: out.append((a, b))
    return out, lo, hi

def charlit(c):
    esc = {'\\': "'\\\\'", "'": "'\\''", '\n': "'\\n'"}
    return esc.get(c, "'" + c + "'")

def strlit(s):
    return 'c!"' + s.replace('\\', '\\\\').replace('"', '\\"') + '"'

out = ['import Verif.Model.Event', 'set_option autoImplicit false', '/-!', '# Tables', '',
       'Generated by `tools/gen_tables.py` from `src/parser/tables.rs`. Sets of characters are written as',
       'sorted ranges of code points.', '-/', 'namespace PL', '',
       '/-- Membership in a list of closed ranges. -/',
       'def inRanges (rs : List (Nat × Nat)) (n : Nat) : Bool := rs.any fun (a, b) => a ≤ n && n ≤ b', '']
for rust, lean in (('is_binary', 'isBinary'), ('is_relation', 'isRelation')):
    rs, lo, hi = ranges(rust)
    out.append('def %sRanges : List (Nat × Nat) := [' % lean)
    row = []
    for k in range(0, len(rs), 6):
        row.append('  ' + ', '.join('(0x%X, 0x%X)' % r for r in rs[k:k+6]))
    out.append(',\n'.join(row) + ']')
    out += ['', '/-- `%s`, tables.rs %d-%d -/' % (rust, lo, hi),
            'def %s (c : Char) : Bool := inRanges %sRanges c.toNat' % (lean, lean), '']

body, lo, hi = fn_body('char_delimiter_map')
arms = re.findall(r"((?:'.'\s*\|\s*)*'.')\s*=>\s*\{\s*\(c, DelimiterType::(\w+)\)", body)
assert len(arms) == 3
ty = {'Open': '.open_', 'Close': '.close', 'Fence': '.fence'}
out.append('def charDelimiters : List (Char × DelimType) := [')
rows = []
for chars, t in arms:
    rows.append('  ' + ', '.join('(%s, %s)' % (charlit(c), ty[t]) for c in re.findall(r"'(.)'", chars)))
out.append(',\n'.join(rows) + ']')
out += ['', '/-- `char_delimiter_map`, tables.rs %d-%d -/' % (lo, hi),
        'def charDelimiterMap (c : Char) : Option (Char × DelimType) :=',
        '  (charDelimiters.lookup c).map fun t => (c, t)', '']

body, lo, hi = fn_body('control_sequence_delimiter_map')
ents = []
for m in re.finditer(r'((?:"[^"]*"\s*\|\s*)*"[^"]*")\s*=>\s*\(\'(\\?.)\', DelimiterType::(\w+)\)', body):
    for n in re.findall(r'"([^"]*)"', m.group(1)):
        c = m.group(2); c = '\\' if c == '\\\\' else c
        ents.append((n, c, m.group(3)))
assert len(ents) == body.count('=> (') + body.count('" | "')
out.append('def csDelimiters : List (Str × Char × DelimType) := [')
out.append(',\n'.join('  (%s, %s, %s)' % (strlit(n), charlit(c), ty[t]) for n, c, t in ents) + ']')
out += ['', '/-- `control_sequence_delimiter_map`, tables.rs %d-%d -/' % (lo, hi),
        'def controlSequenceDelimiterMap (cs : Str) : Option (Char × DelimType) := csDelimiters.lookup cs', '']

def colors(name):
    body, lo, hi = fn_body(name)
    ents = []
    for m in re.finditer(r'((?:"[^"]*"\s*\|\s*)*"[^"]*")\s*=>\s*\(([^)]*)\)', body):
        rgb = [int(x.strip(), 0) for x in m.group(2).split(',')]
        for n in re.findall(r'"([^"]*)"', m.group(1)):
            ents.append((n, rgb))
    assert len(ents) == body.count('=> (') + body.count('" | "'), name
    return ents, lo, hi
for rust, lean in (('dvipsnames_color', 'dvipsnames'), ('primitive_color', 'cssNames')):
    ents, lo, hi = colors(rust)
    out.append('def %s : List (Str × Nat × Nat × Nat) := [' % lean)
    out.append(',\n'.join('  (%s, %d, %d, %d)' % (strlit(n), *rgb) for n, rgb in ents) + ']')
    out.append('')
    if rust == 'dvipsnames_color':
        out += ['/-- `dvipsnames_color`, tables.rs %d-%d -/' % (lo, hi),
                'def dvipsnamesColor (s : Str) : Option (Nat × Nat × Nat) := dvipsnames.lookup s', '']
    else:
        out += ['/-- `char::to_lowercase` as far as it can produce an ASCII letter: the ASCII capitals and the',
                'Kelvin sign. (Every other character keeps, or becomes, something that is not in a CSS name.) -/',
                'def lowerForCss (c : Char) : Char :=',
                '  if 65 ≤ c.toNat && c.toNat ≤ 90 then Char.ofNat (c.toNat + 32)',
                "  else if c.toNat = 0x212A then 'k' else c", '',
                '/-- `primitive_color`, tables.rs %d-%d -/' % (lo, hi),
                'def primitiveColor (s : Str) : Option (Nat × Nat × Nat) :=',
                '  if blen s > 20 then none else cssNames.lookup (s.map lowerForCss)', '']
out.append('end PL')
open('/verif/lean/Verif/Model/Tables.lean', 'w', encoding='utf-8').write('\n'.join(out) + '\n')
