#!/usr/bin/env python3
"""Generate lean/Verif/Model/PrimTable.lean from the match arms of handle_primitive in
/repo/src/parser/primitives.rs (read as text)."""
import re
src = open('/repo/src/parser/primitives.rs', encoding='utf-8').read()
i0 = src.index('let event = match control_sequence {') + len('let event = match control_sequence {')

# --- split the match body into arms -------------------------------------------------
def skip_ws_comments(i):
    while True:
        while src[i].isspace(): i += 1
        if src.startswith('//', i):
            i = src.index('\n', i)
        else:
            return i

def scan_literal(i):
    """if src[i] starts a string or char literal, return its end, else None"""
    if src[i] == '"':
        j = i + 1
        while src[j] != '"':
            j += 2 if src[j] == '\\' else 1
        return j + 1
    m = re.compile(r"'(\\u\{[0-9a-f]+\}|\\.|[^\\'])'").match(src, i)
    if m: return m.end()
    return None

arms = []
i = i0
while True:
    i = skip_ws_comments(i)
    if src[i] == '}': break
    start = i
    while not src.startswith('=>', i):
        j = scan_literal(i); i = j if j else i + 1
    pat = src[start:i].strip()
    i = skip_ws_comments(i + 2)
    bstart = i
    depth = 0
    block = src[i] == '{'
    while True:
        if src.startswith('//', i): i = src.index('\n', i); continue
        j = scan_literal(i)
        if j: i = j; continue
        c = src[i]
        if c in '({[': depth += 1
        if c in ')}]':
            depth -= 1
            if depth == 0 and block: i += 1; break
        if c == ',' and depth == 0 and not block: break
        i += 1
    body = src[bstart:i].strip()
    line = src.count('\n', 0, start) + 1
    if src[i:i+1] == ',': i += 1
    arms.append((pat, body, line))

# --- translate arms -----------------------------------------------------------------
def unesc(s):
    m = re.fullmatch(r'\\u\{([0-9a-f]+)\}', s)
    if m: return chr(int(m.group(1), 16))
    return {'\\\\': '\\', "\\'": "'"}.get(s, s)
CH = r"'(\\u\{[0-9a-f]+\}|\\.|[^\\'])'"
def ch(c):
    c = unesc(c)
    if ord(c) > 0x2fff or c == '\ufe00': return '(Char.ofNat 0x%x)' % ord(c)
    return {"\\": "'\\\\'", "'": "'\\''"}.get(c, "'%s'" % c)
def strlit(s):
    return 'c!"' + s.replace('\\', '\\\\').replace('"', '\\"') + '"'
def lc(s): return s[0].lower() + s[1:]
font = {'Bold':'bold','Script':'script','Italic':'italic','UpRight':'upRight','SansSerif':'sansSerif','Monospace':'monospace',
        'BoldSymbol':'boldSymbol','DoubleStruck':'doubleStruck','DoubleStruckItalic':'doubleStruckItalic','Fraktur':'fraktur',
        'BoldScript':'boldScript','SansSerifItalic':'sansSerifItalic','BoldItalic':'boldItalic','BoldFraktur':'boldFraktur',
        'BoldSansSerif':'boldSansSerif','SansSerifBoldItalic':'sansSerifBoldItalic'}
size = {'Big':'big','BIG':'BIG','Bigg':'bigg','BIGG':'BIGG'}
style = {'Display':'display','Text':'text','Script':'script','ScriptScript':'scriptScript'}
special = {  # arms with their own executor, identified by their first name
 'operatorname':'.operatorname','pmod':'.pmod','dots':'.dots','color':'.color','textcolor':'.textcolor','colorbox':'.colorbox',
 'fcolorbox':'.fcolorbox','left':'.left','middle':'.middle','smallint':'.smallint','kern':'.kern','hskip':'.hskip','mkern':'.mkern',
 'mskip':'.mskip','hspace':'.hspace','Space':'.space3','genfrac':'.genfrac','buildrel':'.buildrel','substack':'.substack',
 'sideset':'.sideset','sqrt':'.sqrt','surd':'.surd','not':'.not_','char':'.char','relax':'.relax','begingroup':'.begingroup',
 'begin':'.begin_','def':'.def_','let':'.let_','futurelet':'.futurelet',
 'overset':'.overset .sup','underset':'.overset .sub'}
def num(e):
    e = e.strip().replace('. ', ' ').rstrip('.')
    e = e.replace('.0','') if e.endswith('.0') else e
    m = re.fullmatch(r'(-?\d+) / (\d+)', e)
    if m: return '⟨%s, %s⟩' % (m.group(1), m.group(2))
    if '.' in e:
        a, b = e.split('.'); return '⟨%d, %d⟩' % (int(a + b), 10 ** len(b))
    return '⟨%d, 1⟩' % int(e)
def dim(t):
    t = t.strip()
    if t == 'None': return 'none'
    m = re.fullmatch(r'Some\(Dimension::new\(([^,]*), DimensionUnit::Em\)\)', t)
    return '(some ⟨%s, .em⟩)' % num(m.group(1))
entries = []
rest = []
for pat, body, line in arms:
    names = [n.replace('\\\\', '\\') for n in re.findall(r'"((?:[^"\\]|\\.)*)"', pat)]
    flat = re.sub(r'\s+', ' ', body)
    if ' if ' in ' ' + pat.replace('\n', ' ') + ' ' or not names or pat == '_':
        rest.append((pat, flat, line)); continue
    def add(f):
        for n in names: entries.append((n, f(n) if callable(f) else f, line))
    m = None
    def M(r):
        global m
        m = re.fullmatch(r, flat)
        return m
    if names[0] in special: add(special[names[0]])
    elif M(r'E::Content\(C::Function\(control_sequence\)\)'): add(lambda n: '.func ' + strlit(n))
    elif M(r'E::Content\(C::Function\("(.*)"\)\)'): add('.func ' + strlit(m.group(1)))
    elif M(r'\{ self.state.allow_script_modifiers = true; self.state.script_position = SP::Movable; E::Content\(C::Function\(control_sequence\)\) \}'):
        add(lambda n: '.funcMov ' + strlit(n))
    elif M(r'\{ self.state.allow_script_modifiers = true; self.state.script_position = SP::Movable; E::Content\(C::Function\("(.*)"\)\) \}'):
        add('.funcMov ' + strlit(m.group(1)))
    elif M(r'return self.atom_group\(AtomClass::(\w+)\)'): add('.atom .' + {'Open':'open_'}.get(m.group(1), lc(m.group(1))))
    elif M(r'\{ self.state.allow_script_modifiers = true; self.state.script_position = SP::Movable; return self.atom_group\(AtomClass::Op\); \}'): add('.atom .op')
    elif M(r"ordinary\(" + CH + r"\)"): add('.ord ' + ch(m.group(1)))
    elif M(r"relation\(" + CH + r"\)"): add('.rel ' + ch(m.group(1)) + ' false')
    elif M(r"E::Content\(C::Relation \{ content: RelationContent::single_char\(" + CH + r"\), small: true, \}\)"): add('.rel ' + ch(m.group(1)) + ' true')
    elif M(r"multirelation\(" + CH + ", " + CH + r"\)"): add('.rel2 ' + ch(m.group(1)) + ' ' + ch(m.group(2)))
    elif M(r"binary\(" + CH + r"\)"): add('.bin ' + ch(m.group(1)))
    elif M(r"E::Content\(C::BinaryOp \{ content: " + CH + r", small: false, \}\)"): add('.bin ' + ch(m.group(1)))
    elif M(r'ordinary\( control_sequence .chars\(\) .next\(\) .expect\(.*\), \)'): add(lambda n: '.ord ' + ch(n))
    elif M(r'self.font_change\(Font::(\w+)\)'): add('.fontChange .' + font[m.group(1)])
    elif M(r'\{? ?return self.font_group\(Some\(Font::(\w+)\)\) ?\}?'): add('.fontGroup (some .' + font[m.group(1)] + ')')
    elif M(r'return self.font_group\(None\)'): add('.fontGroup none')
    elif M(r'self.style_change\(S::(\w+)\)'): add('.style .' + style[m.group(1)])
    elif M(r'return self.sized_delim\(DelimiterSize::(\w+)\)'): add('.sized .' + size[m.group(1)])
    elif M(r"self.large_op\(" + CH + r", (true|false)\)"): add('.largeOp ' + ch(m.group(1)) + ' ' + m.group(2))
    elif M(r"return self.accent\(" + CH + r", (true|false)\)"): add('.accent ' + ch(m.group(1)) + ' ' + m.group(2) + ' false')
    elif M(r"return self.underscript\(" + CH + r"\)"): add('.under ' + ch(m.group(1)) + ' false')
    elif M(r"\{ self.state.script_position = SP::AboveBelow; return self.accent\(" + CH + r", (true|false)\); \}"): add('.accent ' + ch(m.group(1)) + ' ' + m.group(2) + ' true')
    elif M(r"\{ self.state.script_position = SP::AboveBelow; return self.underscript\(" + CH + r"\); \}"): add('.under ' + ch(m.group(1)) + ' true')
    elif M(r"E::Space \{ width: (.*), height: (None|Some\(.*\)),(?: depth: None,)? \}"): add('.space ' + dim(m.group(1)) + ' ' + dim(m.group(2)))
    elif M(r'E::Content\(C::Text\("&nbsp;"\)\)'): add('.nbsp')
    elif M(r'return Err\(ErrorKind::UnbalancedGroup\(None\)\)') or M(r'\{ return Err\(ErrorKind::UnbalancedGroup\(None\)\); \}'): add('.unbalanced')
    elif re.fullmatch(r"x(left|right)arrow", names[0]):
        mm = re.search(r"I::Event\(relation\(" + CH + r"\)\)", flat); add('.xarrow ' + ch(mm.group(1)))
    elif M(r'return self.text_argument\(None\)'): add('.text none')
    elif M(r'return self.text_argument\(Some\(Font::(\w+)\)\)'): add('.text (some .' + font[m.group(1)] + ')')
    elif M(r'\{ (?:return )?self.fraction_like\( ?(.*?) ?\)\??;(?: return Ok\(\(\)\);)? \}'):
        a = m.group(1).strip().rstrip(',')
        parts = re.fullmatch(r"(None|Some\('.'\)), (None|Some\('.'\)), (None|Some\(Dimension.*?\)\)), (None|Some\(S::\w+\))", a).groups()
        def oc(t): return 'none' if t == 'None' else '(some %s)' % re.fullmatch(r"Some\(('.')\)", t).group(1)
        def st(t): return 'none' if t == 'None' else '(some .%s)' % style[re.fullmatch(r'Some\(S::(\w+)\)', t).group(1)]
        add('.frac %s %s %s %s' % (oc(parts[0]), oc(parts[1]), dim(parts[2]), st(parts[3])))
    elif M(r'return self.new_command\((.*)\)'): add('.newcommand ' + {'None':'none','Some(false)':'(some false)','Some(true)':'(some true)'}[m.group(1)])
    elif pat == r'"\\" | "cr"': add('.newline')   # both the guarded and the unguarded arm
    else: raise SystemExit('unhandled arm %s line %d: %s' % (pat, line, flat))
for pat, flat, line in rest: print('arm with guard or catch-all, line', line, ':', pat.split('\n')[0][:70])
seen = {}
for n, p, line in entries:
    if n in seen: print('duplicate', n, seen[n], (p, line))
    else: seen[n] = (p, line)
# the delimiter arm (`control_sequence_delimiter_map`) comes after all literal arms but before the macros arms
csd = re.findall(r'\(c!"((?:[^"\\]|\\.)*)", (\'.*?\'), (\.\w+)\)', open('/verif/lean/Verif/Model/Tables.lean', encoding='utf-8').read().split('def csDelimiters')[1].split(']\n')[0])
macro_names = {'def','let','futurelet','newcommand','renewcommand','providecommand'}
assert not macro_names & {n for n, _, _ in csd}
out = ['import Verif.Model.Prim', 'set_option autoImplicit false', '/-!', '# Names of primitives', '',
 'Generated by `tools/gen_prims.py` from the match arms of `handle_primitive`, primitives.rs 136-1961.',
 'Arms are in the order of the source. Line numbers of the arms are given in comments.', '-/', 'namespace PL', '']
CHUNK = 100
chunks = [entries[k:k+CHUNK] for k in range(0, len(entries), CHUNK)]
for ci, chk in enumerate(chunks):
    out.append('def primTable%d : List (Str × Prim) := [' % ci)
    ls = []
    for k, (n, p, line) in enumerate(chk):
        ls.append('  (%s, %s)%s -- %d' % (strlit(n), p, ',' if k + 1 < len(chk) else ']', line))
    out += ls
    out.append('')
out += ['/-- All literal arms. -/', 'def primTable : List (Str × Prim) :=', '  ' + ' ++ '.join('primTable%d' % k for k in range(len(chunks))), '', 'end PL']
open('/verif/lean/Verif/Model/PrimTable.lean', 'w', encoding='utf-8').write('\n'.join(out) + '\n')
print(len(entries), 'names')
