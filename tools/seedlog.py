#!/usr/bin/env python3
"""Write seeded/LOG.jsonl from the edits and the results of tools/seed.py.

usage: seedlog.py EDITS.json RESULTS.jsonl TIGHTENED.json
"""
import json, sys
edits = {x['id']: x for x in json.load(open(sys.argv[1]))}
tight = json.load(open(sys.argv[3]))
last = {}
for l in open(sys.argv[2]):
    r = json.loads(l)
    last[r['id']] = r
with open('/verif/seeded/LOG.jsonl', 'w') as f:
    for i, x in edits.items():
        r = last.get(i)
        early = r is not None and 'stopped at' in r.get('note', '')
        if r is None or 'failed' not in r or not (r.get('n_good') or early):
            print('no result', i, r and r.get('note', '')[:200])
            continue
        f.write(json.dumps({
            'id': i, 'definition': x['definition'], 'file': x['file'], 'edit': x['edit'], 'old': x['old'], 'new': x['new'], 'claim_broken': x['claim'],
            'proofs_failed': r['failed'], 'theorems_failed': r['bad'], 'property_theorems_still_proved': 'not counted, stopped at the first failure' if early else r['n_good'],
            'theorems_tightened': tight.get(i, []), **({'note': tight['notes'][i]} if i in tight.get('notes', {}) else {}),
        }, ensure_ascii=False) + '\n')
        if not r['bad']:
            print('SURVIVED', i)
        miss = [e for e in x.get('expect', []) if not any(b.startswith(e + '_') for b in r['bad'])]
        if miss and not early:
            print('expected but held', i, miss)
