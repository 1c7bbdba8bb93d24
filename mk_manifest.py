#!/usr/bin/env python3
"""Generate MANIFEST.json: every theorem named CNN_* under lean/Verif/Props, grouped by property."""
import json, re, glob
notes = json.load(open('/verif/manifest_notes.json'))
by = {}
for f in sorted(glob.glob('/verif/lean/Verif/Props/*.lean')):
    ns = []
    for line in open(f):
        m = re.match(r'namespace (\S+)', line)
        if m: ns.append(m.group(1)); continue
        m = re.match(r'end (\S+)', line)
        if m and ns and ns[-1] == m.group(1): ns.pop(); continue
        m = re.match(r'(?:private )?theorem (C\d\d)_(\S+)', line)
        if m:
            name = '.'.join(ns + [m.group(1) + '_' + m.group(2)])
            by.setdefault(m.group(1), []).append(name)
def doc_of(src, name):
    """First sentence of the doc comment of a theorem."""
    m = re.search(r'/--((?:(?!-/).)*?)-/\s*(?:set_option [^\n]* in\s*)?(?:@\[[^\]]*\]\s*)?(?:private )?theorem ' + re.escape(name) + r'(?![\w\'])', src, re.S)
    if not m: return ''
    t = ' '.join(m.group(1).split())
    t = re.sub(r'^\*\*C\d\d(, [^*]*)?\*\*:? *', lambda k: ('(' + k.group(1)[2:] + ') ') if k.group(1) else '', t)
    t = re.split(r'(?<=[.])\s', t)[0]
    return t if len(t) <= 400 else t[:397] + '...'
sources = {f: open(f).read() for f in sorted(glob.glob('/verif/lean/Verif/Props/*.lean'))}
def note_of(names):
    out = []
    for n in names:
        short = n.split('.')[-1]
        for src in sources.values():
            d = doc_of(src, short)
            if d:
                out.append(short + ': ' + d); break
    return ' | '.join(out)
claims = []
for l in open('/verif/properties.jsonl'):
    d = json.loads(l); i = d['id']
    if i not in by: continue
    n = notes.get(i, {})
    partial = any(t.endswith('_partial') for t in by[i])
    claims.append({'property': i, 'status': n.get('status', 'partial' if partial else 'proved'),
                   'theorems': by[i], 'note': n.get('note', '') or note_of(by[i])})
json.dump({'claims': claims}, open('/verif/MANIFEST.json', 'w'), indent=1, ensure_ascii=False)
print(len(claims), 'claims', sum(len(c['theorems']) for c in claims), 'theorems')
