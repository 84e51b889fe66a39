"""Append results of seed.py to seeded/LOG.jsonl.

usage: seedlog.py RESULTS [TIGHTENED.json]

TIGHTENED.json maps "definition|new text" to {"tightened": [...], "note": "..."}.
"""
import json, os, sys
log = os.path.join(os.path.dirname(os.path.abspath(__file__)), '..', 'seeded', 'LOG.jsonl')
extra = json.load(open(sys.argv[2])) if len(sys.argv) > 2 else {}
with open(log, 'a') as f:
    for line in open(sys.argv[1]):
        if not line.startswith('{'):
            continue
        d = json.loads(line)
        if d.get('error'):
            continue
        x = extra.get(d['definition'] + '|' + d['new'], {})
        e = {'definition': d['definition'], 'file': 'lean/Verif/' + d['file'], 'edit': {'old': d['old'], 'new': d['new']},
             'claim': d['claim'], 'failed': d['failed'], 'failed_lemmas': d['lemmas'],
             'tightened': x.get('tightened', [])}
        if x.get('note'):
            e['note'] = x['note']
        f.write(json.dumps(e) + '\n')
