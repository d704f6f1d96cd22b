#!/usr/bin/env python3
"""Writes MANIFEST.json from tools/claims.txt: one line per claim, `C01 | status | theorem theorem | note`."""
import json, os
here = os.path.dirname(os.path.abspath(__file__))
claims = []
for line in open(os.path.join(here, 'claims.txt')):
    line = line.strip()
    if not line or line.startswith('#'):
        continue
    prop, status, thms, note = [x.strip() for x in line.split('|', 3)]
    claims.append({'property': prop, 'status': status, 'theorems': thms.split(), 'note': note})
json.dump({'claims': claims}, open(os.path.join(here, '..', 'MANIFEST.json'), 'w'), indent=1)
